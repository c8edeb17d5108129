# Formal model of florianmarkusse/html-parser in Lean 4

## Method

The C sources in `/repo` are transcribed function by function into total, computable Lean definitions
under `lean/Verif/Model/`.  Each definition cites the file and lines it models and says where it
simplifies.  Specifications that do not mention the model's helpers live in `lean/Verif/Spec/`,
supporting lemmas in `lean/Verif/Proofs/`, and the property theorems (named `Cnn_...`) with their
non-vacuity examples in `lean/Verif/Props/`.

Modelling conventions

* bytes are `UInt8`, strings (`flo_String`) are `List UInt8`; positions are `Nat`; C lengths that can
  become negative in the code (`parseProp`, `parseTextNode`) are `Int`.
* every function that can leave the defined world returns `Out α`:
  `ok a`, `longjmp` (jump to the arena's failure handler), `ub why` (undefined behaviour: out-of-bounds
  read, negative length, NULL dereference), `hang` (a loop did not finish within the fuel handed to it).
* C loops become structural recursion on a fuel argument, whose start value is written next to the loop; the
  property theorems prove `hang` unreachable, i.e. that the loop really terminates, or exhibit the state
  in which it does not.
* a DOM is a structure of lists (the dynamic arrays); a pointer into such an array is an index.
  16-bit identifiers are `Nat`; that they stay below 2^16 is a theorem (C12), as is the adequacy of the
  16-bit loop counters (C56).
* the node's union `{tagID, text}` is a sum type; reading `tagID` of a text node (which `filterNode`
  does) yields an arbitrary number given by an oracle parameter `pun`, and theorems hold for every oracle.
* reading `nodeStack->stack[-1]` in `flo_html_parseExtra` is an arbitrary string parameter `junk`.
* memory: the DOM level assumes the arena never runs out; the arena, dynamic array, pool allocator and
  log buffer have their own byte-address level models, and parsing and querying have a second model in the arena's memory
  (DomMem, QueryMem) proved to follow the first.

## Trusted base

* Lean 4.33.0's kernel; axioms at most `propext`, `Classical.choice`, `Quot.sound` for every property
  theorem (`Verif/Axioms.lean` checks this at build time and fails the build otherwise); no own axioms, no `native_decide`/`bv_decide`.
* the reading of the C code into the model (not mechanised).  The code is not run here.
* the C implementation: two's complement, 64-bit pointers, no compiler exploitation of undefined
  behaviour beyond what `ub` covers.

## Modelled / not modelled

Modelled, function by function (model file: C sources)

| model file | C sources |
|---|---|
| Basic, Hash | `util/include/flo/util/text/char.h`, `util/include/flo/util/hash/hashes.h`, `include/flo/html-parser/util/parse.h` |
| AutoMap | `src/dom/util/string-auto-uint16-map.c` (the four name tables of a DOM) |
| Dom, Modify | `src/dom/dom.c` (initialisation), `src/dom/dom-util.c`, `src/dom/traversal.c`, `src/dom/reading/*.c`, `src/dom/modification.c` |
| Parser | `src/parser.c`, all of it |
| DomMem | `flo_html_createDom` again, with all tables, texts and name maps in the memory of an arena: `src/parser.c`, `src/dom/dom.c`, `src/dom/dom-util.c`, `src/dom/modification.c`, `string-auto-uint16-map.c`, `array.h`, `raw-data.h` |
| Edit | `src/dom/deletion.c`, `src/dom/appendix.c`, `src/dom/prependix.c`, `src/dom/replacement.c` |
| Query, Msi | `src/dom/query/query.c`, `query-util.c`, `msi-uint16.c`, `util/src/hash/msi/*.c` |
| QueryMem | the same query code with its sets in the memory of an arena: `util/src/hash/msi/*.c`, `src/dom/query/*.c` |
| Compare | `src/dom/comparison.c`, `flo_html_duplicateDom` of `src/dom/dom.c` |
| Write | the HTML printer of `src/dom/writing.c` |
| Status | `flo_html_printDomStatus` of `src/dom/writing.c`, `flo_html_printFirstDifference` of `src/dom/comparison.c` |
| Files | `util/src/file/read.c`, the `...FromFile`/`...WithQuery` wrappers, `flo_html_writeHTMLToFile` |
| Messages | the queries, the `...WithQuery` and file functions again with their messages on stderr; `flo_getWriteBuffer`, the `...StatusToString` functions |
| EditMem | `deletion.c`, `appendix.c`, `prependix.c`, `replacement.c`, `modification.c`, `dom-util.c` again, on the tables in the memory of the arena; pointers into arrays that a growing array leaves behind are modelled as addresses |
| DupMem | `flo_html_duplicateDom` of `src/dom/dom.c` again, on the memory of the arena |
| Log, LogReturn, Double | `util/src/log.c`, `util/include/flo/util/log.h` |
| Arena, Pool, Buddy | `util/src/memory/arena.c`, `pool-allocator.c`, `buddy-allocator.c`, `util/include/flo/util/array.h` |
| Strings, Path | `util/include/flo/util/text/string.h`, `util/src/file/path.c` |
| Trie | `util/include/flo/util/hash/trie/*.h`, `util/src/hash/trie/*.c` |
| Scan16 | the 16-bit search loops of `src/dom/traversal.c` |

Not modelled, or simplified (each also noted at the definition)

* Crash.lean writes the parser and all mutating functions once more as programs that may leave through the failure exit at every
  statement that may allocate, with the DOM as it is then (C125-C127). Abstractions: every push may fail, whatever the capacity of its
  array; a push that fails has not touched its array (wrong for the capacity of an array without buffer: that is C128, Model/ArrayCrash.lean); the buffer of a text under construction counts as one allocation. With memory
  enough the programs are the functions of Parser.lean and Edit.lean (`C125_program`).
* Parser, Edit and Query use an unbounded arena: exhaustion of the arena (a `longjmp`) is modelled in the allocator models
  (C45-C47), for queries (C81, C82, where the sets of a query are bytes in the arena), for parsing (C83, C84), editing (C88, C89) and duplicating (C90-C92), where the tables,
  texts and name maps of the DOM are bytes in the arena; exhaustion of the 16-bit identifiers everywhere (C12, C59, C72).
  In DomMem and EditMem the members of the `flo_html_Dom` structure itself and local variables are records, not bytes.
  `memcpy` from the NULL address of an empty table copies nothing in DupMem (the C standard leaves it undefined).
* Messages on standard error are left out of Query, Files and Edit; Messages models them (C85), except those of comparison.c, which are in Status (C79).
* Floating-point arithmetic (Double.lean): `double` is IEEE 754 binary64 without the sign of zero, each operation is rounded once
  to nearest even (no `-ffast-math`, no extended precision).
* `memcpy` copies simultaneously (overlapping arguments are not distinguished from `memmove`, except in QueryMem, where they are `ub`).
* `FLO_ASSERT` is empty, as in a release build; conditions it would check appear as `ub` or as hypotheses.
* The operating system is an oracle: `write`, `fread`, `mkdir`, `ftell` results are parameters.
* Fragment parsing reads one element before its nesting stack; the value read is the parameter `junk`, all theorems hold for
  every value (`Reads junk`: the read yields something and does not trap).
* Tests, benchmarks, fuzzing drivers and the CMake build are not modelled.

Histories.  `Reachable` covers every sequence of the mutating API functions called with the preconditions in
`Spec/History.lean` (`Allowed`).  Excluded, because the code itself breaks there (each exclusion has a witness theorem):
inserting HTML without content (C28), and the two situations of `ReplaceSafe` (C27).

## Properties the code does not have

Each has a kernel-checked witness theorem `Cnn_violated...` next to the part that holds (`..._partial`).

| id | what goes wrong |
|----|-----------------|
| C02 | an opening quote as the very last byte gives a string of negative length |
| C07 | the contents of `script` and `style` are parsed as markup and lose line breaks |
| C13 | the child subscript is `hash << 62`, not `hash >> 62` |
| C14, C28 | inserting HTML without content into a childless node records an identifier that does not exist, or reads out of bounds |
| C16 | walking from a childless node continues behind it |
| C20 | `prependTextNode` and `replaceWithTextNode` return a removed identifier after a merge |
| C26 | a replaced element and its descendants are still found by queries |
| C27 | `replaceWithHTML`: NULL dereference, return value 0, or a removed node linked, depending on the neighbouring texts |
| C31, C32, C37 | tag selectors read the union of a text node; `*` also selects the root and texts and drops conditions; a class selector drops the rest of the selector up to the next `.` or `#` (exactly: Skip.lean) |
| C36 | attribute selectors return removed nodes |
| C38 | an edit addressed by a query without match edits node 0 |
| C41 | attribute comparison compares the sets of keys and of values separately |
| C42 | a duplicate of an empty table gets a non-NULL buffer of capacity 0 |
| C52 | no directory is created for an absolute path |
| C54, C55 | pairedness is kept per tag name; `<input required/>` is read back with the attribute `required/` |
| C57 | pointers lose their last hexadecimal digit |
| C60 | after a failed `write` the buffer is written again, and a newline is stored behind it |
| C61 | negative `int`s and `short`s print as huge numbers |
| C63 | a removed node can keep its parent |
| C64 | resetting a pool with free chunks makes its free list cyclic |
| C65 | `size * count` overflows |
| C66 | the terminator is stored behind a destination of equal length |
| C67 | insertion into the string map returns 1 instead of the value |
| C69 | reading an unseekable file stores out of bounds |
| C71 | write errors are reported as success; the path may lack a terminator |
| C73 | the buddy allocator coalesces incompletely and its search skips the last block, so freed memory may stay unusable; it also joins free blocks of equal size that are not buddies, after which memory that is completely free stays fragmented for good |
| C79 | the difference report prints the first node's tag for both nodes, and finds no difference between nodes that differ in their number of children |
| C80 | appending with padding or repetition returns 1 instead of the number of characters; a NULL string gets no end of line |
| C92 | a duplicate's empty tables have an address but no capacity, and growing doubles 0: after `<p></p>`, appending a text to the duplicate overwrites a row |
| C99 | logging NaN converts it to an integer, which is undefined |
| C108 | prepending records the parent of every existing child again: the table of parents grows by 1 + the number of children, quadratically over repeated prepends |
| C111 | by the wrong subscript of C13 every entry of a name table hangs on link 0 of the one before: the tables are linked lists and lookups are linear |
| C112 | a value whose closing quote is missing loses the last byte of the source, which may be half of a character (`<a b="é`) |
| C115 | nothing is escaped on output: a text with `<` or a value with `"` becomes markup when the page is read again |
| C119 | identifiers of removed nodes are never used again: adding and removing one element 65534 times takes the failure exit though the document is empty throughout |
| C122 | as nothing is escaped, a text containing markup prints like the element, though the comparison tells the two documents apart |
| C125 | a failing prepend has already exchanged the first child and loses all old children; a failing setTextContent has already removed the children; a failing append may leave a child without parent; a failing replacement by HTML may lose the following siblings |
| C127 | a new name takes two allocations; when the second fails, the name has a number but no entry in the table of names: calling again succeeds and printing then reads outside the table, and later names are printed in each other's place |
| C128 | `flo_grow` and `flo_addRawData` write the capacity of an array without buffer before they ask for the memory: after a failure the next push or append stores through NULL |
| C131 | after a failing append of a fragment the nodes already made, which are in no list of children, are among the answers to a query for their tag |

## Plan per property

| id | model | proof |
|----|-------|-------|
| C01 | Parser.lean, fuel loops | measure `len - idx` decreases in each loop; fuel theorem |
| C02 | reads through `charAt`/`subStr` giving `ub` | case analysis per read; only an unterminated quote as last byte gives `ub` (code violates the property: witness + partial) |
| C03 | stack bound explicit | invariant on stack length |
| C04, C05 | `parseStep` on (idx, dom, stack, prev) | invariant: tables = child lists of a rightmost-path tree |
| C06 | parseTextNode | invariant on accumulated text |
| C07 | same | code violates it: witness; partial for content without `<` |
| C08 | parse invariant | nodes on the stack are never void |
| C09 | serialiser in Spec | induction over trees |
| C10 | parse loop | induction over the segments |
| C11-C13 | Trie.lean with 64-bit slot computation | refinement to a first-seen list |
| C14 | Edit.lean | `Linked` relation to a child-list function; invariant over histories |
| C15, C16 | traversal | induction over the tree; C16 false for childless start nodes (witness, partial) |
| C17-C28 | Edit.lean | effects as pointwise updates of the child-list function; violated ones get witnesses |
| C29, C30 | Modify/Reading | refinement to per-node lists |
| C31-C38 | Query.lean | set semantics; violated ones get witnesses |
| C39-C42 | Compare.lean | structural induction |
| C43, C44, C57 | Log.lean | invariant over append/flush sequences; digits lemma |
| C45-C47, C51, C58 | Arena/Array/Pool/Buddy | invariants over histories |
| C48-C50 | Msi.lean, Trie.lean | probing covers all slots because the step is odd; refinement to lists |
| C52, C53 | Path/Str | list definitions |
| C54, C55 | Write.lean | structural induction, witnesses |
| C56 | table length bounds | invariant |
| C57-C62 | Log.lean, Files.lean | lemmas on digits; refinement of the buffer to the list of bytes handed over |
| C59, C72 | Parser.lean, Edit.lean | every event consumes a byte; room calculus `NJ` |
| C63 | Edit.lean, Detached.lean | tables after removal; `getParent` fails (witness): rows of the parent table counted through the removal, and at most one per node after parsing |
| C64, C65, C73 | Pool.lean, Buddy.lean, BlockList.lean | invariants over histories; witnesses; C73 exactly through the list machine of C110 |
| C66 | Strings.lean | byte-level; witness |
| C67, C68 | Trie.lean | refinement to an association list; the 16-bit hash is a bijection, so paths have at most 8 links |
| C69-C71 | Files.lean, Delivery.lean | sequential composition with the read/write oracle; C60 and C71 exactly, by induction on the inductive relation `Pushed` (both directions: every run is described, every description is some run) |
| C74 | Modify.lean, Parser.lean | the registry after any operation is the old one plus the first uses |
| C75 | Buddy.lean, Pool.lean | every loop of the allocators commutes with replacing the outside memory (`mix`), by the same inductions as C58/C51 |
| C76 | Parser.lean | mutual induction over the grammar of `Spec/Broken.lean` (pieces, errors, unclosed tail), on top of the lexing lemmas of C09 |
| C77 | AutoMap.lean, Query.lean | the tables only grow; the syntactic part of a query depends on the tables only through `contains` |
| C78 | Status.lean (model), Spec/Status.lean | a calculus of printing functions (`Prints`): each part appends a fixed text; the name tables list their entries once (tree invariant) |
| C79 | Status.lean (model), Spec/Report.lean | the set comparisons are characterised by the sets; the report follows the stages of the comparison |
| C80 | LogReturn.lean | each call is a sequence of appends; witnesses |
| C81, C82 | QueryMem.lean | simulation of Query.lean (`Sim`): sets are disjoint blocks of bytes, a potential bounds their growth |
| C83, C84 | DomMem.lean | simulation of Parser.lean (`SimC`): every byte has an owner (free, fixed, a table, a map node), a ledger bounds the arrays by what their doubling has cost; the ledger is linear in the source (`parse_cost`) |
| C85-C87 | Messages.lean | a call with messages is a flushed text followed by the answer of the call without (`Tells`); induction over the query loops with a count of brackets |
| C88, C89 | EditMem.lean | simulation of Edit.lean (`SimC`, with cost bounds `EdR` for bytes, texts and nodes); induction over a history of calls and foreign allocations (`Held`) |
| C90-C92 | DupMem.lean, Spec/Worlds.lean | simulation of `duplicateDom`; induction over a program history: each DOM has the representation of C83 in memory that no other owns (`Shared`) |
| C93, C94 | Parser.lean, Edit.lean | `Spec/Reference.lean`: a reader on suffixes of the input, defined on every string; the lexer's events are its tokens (`Proofs/RefLex`, `RefTag`, `RefTokens`), the trees built from the events are the trees made of the tokens, and the events end where a quote is read beyond the input (`Stuck`) |
| C95 | all of the editing model | `Spec/Page.lean`: pages and their operations; one simulation lemma per editing function (`Proofs/PageOps`, `PageAdd`) on top of the child-list specifications of C17-C30 and the fragment theorem of C94; numbers from the preorder invariant of the parser (`Proofs/PageNumber`); induction over the session |
| C96-C98 | the page of C95 | laws of the tree operations (`Passes`: a change at one node passes through the nodes above and leaves the others alone), carried over to the API by C95 and to the printed text by the forms on record |
| C99 | Double.lean: rationals, `nearest` | error bounds of the roundings in the two ranges below and above 2^33; witness NaN |
| C100 | Modify, Parser, Edit | invariant: every row of the attribute tables carries the number of an element, a removed node or none |
| C101 | Query, on the page of C95 (`Spec/PageQuery.lean`) | the document tree of a DOM that shows a page is the page; `query_live` (C31) and C100 |
| C102 | Dom, Modify, on the page of C95 (`Spec/PageRead.lean`) | `NavOK` (C14), the walk theorems C15/C16 and the attribute answers C29, transported to the page by `Shows` |
| C103 | Compare, on pages (`Spec/PageCompare.lean`) | C41_exact (`SameTree`, `FirstDiff`) transported to the pages by induction on the trees |
| C104 | Edit, Parser, on pages (`Spec/PageValue.lean`: what each call returns, by the children of one node before and after) | case by case from the step theorems of C95 and C17–C27 |
| C105 | DomMem, EditMem, on pages (`Spec/MemSession.lean`) | C83 for the parse, then `Held.call` (C88) and C104 for each call, by induction on the calls; the strings of later calls are unchanged by earlier ones |
| C106 | Parser, Edit, on pages (`Spec/PageRefuse.lean`: the tokens up to the refusal) | induction over the lexer's events with the number of nodes and the uses of names (`runEvs_left`); then as C95, C104, C105 |
| C107 | DomMem, EditMem, on pages (`Spec/SessionRoom.lean`: the number of bytes) | induction over the calls: each call takes at most three times the measure of the tables before and after (C89), and the measure grows by at most 24 per recorded sibling and 400 per byte of strings (`runOp_grow_bytes`, Proofs/Growth.lean) |
| C108 | Edit, Modify | the rows pushed by the walk over the later siblings are counted along the chain of siblings (`append_rows`, `prepend_rows`); induction over the additions |
| C109 | Query, Edit, on pages (`Spec/PageFind.lean`: the first node picked, the session without queries) | the walk of `querySelector` is the page's document order (`page_preorder`), its candidates are given by C101; induction over the calls |
| C110 | Buddy (`Spec/BlockList.lean`: the machine on lists of blocks) | refinement: each loop of the allocator is a recursion over the list of blocks found by walking the headers; induction over the history |
| C111 | AutoMap (`compared`: the names a lookup compares) | the tables are chains in the order of the identifiers: part of the invariant `MapOK` of every reachable document |
| C112 | the reference reader and pages; `Spec/Utf8.lean` defines UTF-8 (RFC 3629, without overlong forms and surrogates) | every boundary the reader and the page operations put is next to an ASCII byte, so pieces of UTF-8 are UTF-8; then C93, C95, C106 |
| C113 | the reference reader, pages and printer; `Spec/Rename.lean` defines neutral renamings of bytes | each reference function commutes with the renaming; then C93, C95, C106 on both runs |
| C114 | two runs on documents that show the same page | C106 on both; the value of each call is a function of the two pages (`gives_det`), readers by C102 |
| C115 | pages, the printer and the reader; `Spec/Inject.lean` says which strings are harmless | a page of harmless strings is in the domain of the reparse theorem once neighbouring texts are joined; every page operation keeps strings harmless; C95, C106 |
| C116 | pages, the printer and the reader of HTML strings | what is printed of a page of harmless strings is clean source, whose tokens as an HTML string are the trees of the page (`lex_doc`, C93's reader); then the page operations of C95 and the values of C104 |
| C117 | the reference reader (C93, C94) and pages | the lexer passes over clean source whatever follows (`LexTo`); tokens, nesting and trees split at the boundary; `between` twice is `between` once (C95, C104) |
| C118 | the row-returning functions of Model/Dom.lean (a pointer is the index of the row) | `LinkedD`: one row per link; induction along the chain of siblings |
| C119 | `nodes.length` along sessions (`runOps`) | counting lemmas of Proofs/Count.lean, induction over the session; the failing session is built with C72 and C17/C21 |
| C120 | `equals` on three DOMs | success at a node determines everything the comparison looks at in it (`labelSpec_congr`); induction over the common shape |
| C121 | session of attribute calls (`attrCalls`) | every sequence of attribute calls on one node is one relabelling (`run_attrs`); list lemmas about first-match update and removal |
| C122 | pages, printer, reader, comparison | the printed text is parsed once: both pages are what is read (C115's reparse), trees of a DOM are unique, the name table gives the forms; C103 for the comparison |
| C123 | sessions on pages; `Spec.Put` names the corresponding calls | putting something in the place of a child, or changing what a child is, is changing the parent's children (`instead_parent`, `relabel_parent`); composition of changes at one node; C95 |
| C124 | queries (`Spec/Query.lean`) and their relations (`Spec/QueryLaws.lean`) | monotonicity and decomposition of the left-to-right evaluation; exact answers of C31 and C32, refusals of C34 |
| C125 | Model/Crash.lean: the mutating functions as programs that may fail at every allocation; readings (`Spec/Crash.lean`) | a triple logic with a failure postcondition; what is added before the links are written concerns new nodes and new names only (`Ext`); simulation relates the programs to the functions of Model/Edit.lean |
| C126 | Model/Crash.lean: the parser as a program that may fail at every allocation | the triple logic of C125 along the main loop; rows are only added, and only for identifiers from the first new one on |
| C127 | as C125; numbers and names (`WholeNames`) | inserting a name again finds it; the two places at which a name is half registered are the only others |
| C128 | Model/ArrayCrash.lean: the growing functions with the array they leave at the failure exit | case analysis; agreement with Model/Arena.lean |
| C129 | Crash.lean programs | every interrupted link update differs in the parent rows only from a linked document (lostFirst, lostRest); linked documents can be printed (linked_prints) |
| C130 | Crash.lean programs | the rules of C129 with the predicate `Touch` (one list may differ) in place of printability: Ready is kept by parsing, merging and dropping the merged node; linking is interrupted as in lostFirst, lostRest |
| C131 | Crash.lean programs | failing in the middle of registering a name leaves a DOM with more names only (`NamesOnly`); every step of reading and evaluating a query gives the same on it; with unlinked nodes besides (`Spare`) the sets of nodes agree on the old nodes, step by step |
| C132 | Page.lean, C95 | the page after either order is the same up to the numbers of the new nodes: numbers from the old `next` on are forgotten, and on what is left the two changes commute (`two_sides`, `relabel_side`, `relabel_comm`); with each number used once, removing is dropping the number everywhere, which commutes with everything that does not look at it |
| C133 | PageQuery.lean, C101, C77 | the rows of the page change in one label only; every selector gives the same on the old and the new label |
| C134 | PageRead.lean, C102, C95 | the rows of the page keep their children, and labels keep their words; the parts of the page are relabelled with it |
