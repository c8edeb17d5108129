import Verif.Model.Messages
import Verif.Spec.Log
/-!
# What failing calls are to say (C85, C86, C87)

The texts are written out here, independently of the model's tables.
-/
namespace Flo.Spec

/-- The names of the status codes of a query. -/
def queryStatusName : QStatus → Str
  | .success => b!"Success"
  | .invalidElement => b!"Invalid element"
  | .tooManyFilters => b!"Too many filters for a single element"
  | .notSeenBefore => b!"Detected unforeseen tag or attribute"
  | .memoryError => b!"Memory error"

/-- The names of the status codes of the file functions. -/
def fileStatusName : FileStatus → Str
  | .success => b!"Success"
  | .cantOpen => b!"Cannot open file"
  | .cantAllocate => b!"Cannot allocate memory"
  | .cantRead => b!"Cannot read file"

/-- The names of the status codes of a comparison. -/
def comparisonStatusName : CStatus → Str
  | .success => b!"Success"
  | .memory => b!"Memory error"
  | .differentNodeType => b!"Different type of node"
  | .differentSizes => b!"Collections have different sizes"
  | .differentContent => b!"Collections have different content"

/-- The names of the kinds of nodes. -/
def nodeTypeName : NodeType → Str
  | .root => b!"Root"
  | .document => b!"Document"
  | .text => b!"Text"
  | .removed => b!"Removed"
  | .error => b!"Error"

/-- The warning about an attribute condition that is neither `[name]` nor `[name=value]`. -/
def warning : Str := b!"Unrecognized character in filtering function. Dropping a token!\n"

/-- `n` warnings. -/
def warnings (n : Nat) : Str := (List.replicate n warning).flatten

/-- The line that gives the reason of a failure, if there is one. -/
def reason : QStatus → Str
  | .tooManyFilters => b!"Too many filters in a single element detected!\n"
  | .invalidElement => b!"Did not receive any filters in the css query\n"
  | _ => []

/-- What a query that ended with the status `st` says at the end. -/
def queryEnd : QStatus → Str
  | .success => []
  | st => reason st ++ queryStatusName st ++ b!"Unable get query results!\n"

/-- The status of the outcome of a query. -/
def QRes.status : QRes α → QStatus
  | .fail st => st
  | .go _ => .success

/-- `text` is what a query `css` that ended with the status `st` says: a warning per condition dropped (91 is `[`), and how it
ended. -/
def QuerySays (css : Str) (st : QStatus) (text : Str) : Prop :=
  ∃ n, n ≤ css.count 91 ∧ text = warnings n ++ queryEnd st

/-- `f`, called with the standard error buffer, answers `a` and puts `text` on the stream, whatever the size of the buffer,
whatever it contains, and however the writes split the output, provided that none fails.  With `flushed` nothing of it stays
behind in the buffer. -/
structure Puts (f : WBuf → Out (α × WBuf)) (a : α) (text : Str) : Prop where
  ordered : ∀ b : WBuf, 0 < b.cap → b.data.length ≤ b.cap → NoErrors b.sched →
    ∃ b', f b = .ok (a, b') ∧ b'.sink ++ b'.data = b.sink ++ b.data ++ text
  flushed : ∀ b : WBuf, 0 < b.cap → b.data.length ≤ b.cap → NoErrors b.sched → text ≠ [] →
    ∃ b', f b = .ok (a, b') ∧ b'.data = []
  quiet : text = [] → ∀ b, f b = .ok (a, b)

/-- The message about a file that cannot be read. -/
def unreadable (st : FileStatus) (path : Str) : Str :=
  fileStatusName st ++ b!"\n" ++ b!"Failed to read file: " ++ path ++ b!"\n"

/-- The message about a selector that found nothing. -/
def notFound (css : Str) : Str := b!"Could not find element using query selector: " ++ css ++ b!"\n"

/-- The same operation without messages: which edit a `...WithQuery` function performs at the node found. -/
def editOf (junk : Nat → Out Bool) : QueryEdit → Nat → Dom → Out (Nat × Dom)
  | .appendDocument doc, n, d => appendDocumentNode n doc d
  | .appendText t, n, d => appendTextNode n t d
  | .appendHTML h, n, d => appendHTML junk n h d
  | .prependDocument doc, n, d => prependDocumentNode n doc d
  | .prependText t, n, d => prependTextNode n t d
  | .prependHTML h, n, d => prependHTML junk n h d
  | .replaceDocument doc, n, d => replaceWithDocumentNode n doc d
  | .replaceText t, n, d => replaceWithTextNode n t d
  | .replaceHTML h, n, d => replaceWithHTML junk n h d

/-- A history of output operations, each on one of the two streams. -/
def runStreams : List (BufferType × LogOp) → Streams → Out Streams
  | [], s => .ok s
  | (t, op) :: ops, s => do
    let s ← onStream t (runLog op) s
    runStreams ops s

/-- The text a history is to put on the stream `t`. -/
def streamText (t : BufferType) (ops : List (BufferType × LogOp)) : Str :=
  (ops.filter (fun o => o.1 = t)).flatMap (fun o => o.2.text)

end Flo.Spec
