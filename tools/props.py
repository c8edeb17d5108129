#!/usr/bin/env python3
"""Single source for properties.jsonl (run: python3 tools/props.py)."""
import json, os
P = []
def p(title, statement, quantifier, why, anchors):
    P.append(dict(id="C%02d" % (len(P)+1), title=title, statement=statement,
                  quantifier=quantifier, why_tests_cant=why, anchors=anchors))

# ---- parsing -------------------------------------------------------------
p("Parsing terminates",
  "flo_html_createDom returns (a DOM, NULL, or a jump to the out-of-memory handler) on every byte string; no input makes any of its scanning loops run forever.",
  "every byte string of every length",
  "Tests try finitely many inputs; a non-terminating scan can hide behind any malformed tail.",
  ["src/parser.c:flo_html_parse", "src/parser.c:parseTextNode", "src/parser.c:parseDocumentNode", "src/parser.c:parseProp", "include/flo/html-parser/util/parse.h"])
p("Parsing never reads outside the input",
  "While parsing any byte string, every character or substring the parser takes lies inside the input and every length it computes is non-negative.",
  "every byte string of every length",
  "An out-of-bounds read usually goes unnoticed in a test, and only specific malformed tails trigger it.",
  ["src/parser.c:parseProp", "src/parser.c:isCommentTag", "src/parser.c:isEndDocumentTag", "src/parser.c:parseTextNode", "include/flo/html-parser/util/parse.h:FLO_PARSE_SKIP_COMMENT"])
p("NULL exactly on excessive nesting",
  "flo_html_createDom returns NULL only if at some point an element with an end tag is opened while 255 such elements are already open below the root; the fixed-size nesting stack is never written outside its 256 slots.",
  "every byte string of every length and nesting depth",
  "The bound must hold for every interleaving of start, end, void and rogue tags.",
  ["src/parser.c:flo_html_parse", "include/flo/html-parser/parser.h:FLO_HTML_MAX_NODE_DEPTH"])
p("A parsed document is a tree",
  "After a successful parse, every node other than the error node and the root has exactly one parent, appears exactly once in that parent's child list, and is reachable from the root by first-child/next-sibling steps; the lists are finite and acyclic.",
  "every byte string for which parsing succeeds",
  "Well-formedness is a global invariant of the tables built over an unbounded token sequence.",
  ["src/parser.c:updateReferences", "src/parser.c:flo_html_parse", "src/dom/traversal.c"])
p("Node identifiers are document order",
  "After a successful parse of an input, iterating flo_html_traverseDom from the root visits exactly the nodes 2,3,...,n-1, in that order.",
  "every byte string for which parsing succeeds",
  "Order must hold for all documents, not samples.",
  ["src/parser.c:flo_html_parse", "src/dom/traversal.c:flo_html_traverseDom"])
p("Parsed text is whitespace-normalised",
  "Every text node made by the parser contains no '<', tab, newline or carriage return, never two consecutive spaces and no trailing space.",
  "every byte string for which parsing succeeds and every text node of the result",
  "Chunking, comments and end-of-input interact in unboundedly many ways.",
  ["src/parser.c:parseTextNode", "src/parser.c:textNodeContinue"])
p("Script and style content is raw text",
  "The content of a script or style element is kept as one text node, whatever characters it contains, up to the matching end tag.",
  "every script or style content without its own end tag",
  "Must hold for all contents; the tests use contents without '<'.",
  ["src/parser.c:parseTextNode", "src/parser.c:isCloseTag"])
p("Void and declaration elements get no children",
  "In a parsed document an element whose tag is a void element, or that starts with '!', never has a child node.",
  "every byte string for which parsing succeeds and every such node",
  "Must hold whatever follows the tag.",
  ["src/parser.c:isVoidElement", "src/parser.c:parseDocumentNode", "src/parser.c:flo_html_parse"])
p("Parsing inverts serialisation on clean documents",
  "For every finite tree of elements, attributes and normalised texts with well-formed names and depth below the limit, parsing its serialisation yields a DOM that represents exactly that tree.",
  "every clean document tree of every size",
  "Round-trip for all trees; tests cover a handful.",
  ["src/parser.c:flo_html_parse", "src/dom/writing.c:printNode"])
p("Comments and whitespace create no nodes",
  "A document consisting only of whitespace and terminated comments yields a DOM with no nodes but the error node and the root.",
  "every sequence of whitespace and comments",
  "Unboundedly many comment bodies.",
  ["include/flo/html-parser/util/parse.h:FLO_PARSE_SKIP_COMMENT", "src/parser.c:flo_html_parse"])
# ---- interning -----------------------------------------------------------
p("Names are interned consistently",
  "Over any sequence of insertions into a name table, equal strings always get the same identifier, different strings different ones, identifiers are 1,2,3,... in first-seen order, and the registry entry at an identifier is the inserted string.",
  "every sequence of inserted strings",
  "Depends on the hash values of all strings and on the whole insertion history.",
  ["src/dom/util/string-auto-uint16-map.c", "src/dom/modification.c:getCreatedPropIDFromString", "src/dom/modification.c:flo_html_setTagOnDocumentNode"])
p("Identifier space exhaustion is reported, not wrapped",
  "When a table already holds 65535 names, interning a new one, or creating a node beyond identifier 65534, jumps to the failure handler and never reuses an identifier.",
  "every insertion history of every length",
  "Needs histories of more than 65535 distinct names.",
  ["src/dom/util/string-auto-uint16-map.c:flo_trie_insertStringAutoUint16Map", "src/dom/dom-util.c:flo_html_createNode"])
p("Name-table lookups stay inside the node",
  "Every lookup or insertion in a name table only follows one of the four child links of the trie nodes it visits.",
  "every string and every table",
  "The subscript is derived from a 64-bit hash of arbitrary input.",
  ["src/dom/util/string-auto-uint16-map.c:flo_trie_insertStringAutoUint16Map", "util/include/flo/util/hash/hashes.h:flo_hashStringDjb2"])
# ---- navigation ----------------------------------------------------------
p("Navigation functions agree with one tree",
  "In every DOM reachable by parsing and then editing, there is one tree such that getFirstChild, getNext, getParent and getPrevious return exactly its first child, next sibling, parent and previous sibling (0 when there is none).",
  "every input and every finite sequence of create/append/prepend/replace/remove operations",
  "The invariant ranges over all operation histories.",
  ["src/dom/traversal.c", "src/dom/appendix.c", "src/dom/prependix.c", "src/dom/replacement.c", "src/dom/deletion.c"])
p("traverseDom is a preorder walk",
  "In every reachable DOM, iterating flo_html_traverseDom from the root visits every node of the tree exactly once, in preorder, and then reports the end.",
  "every reachable DOM",
  "Needs induction over trees of arbitrary shape.",
  ["src/dom/traversal.c:flo_html_traverseDom"])
p("traverseNode stays inside the subtree",
  "Iterating flo_html_traverseNode from a start node visits exactly the proper descendants of that node, in preorder; getTextContent collects exactly the texts below the node.",
  "every reachable DOM and every start node",
  "All tree shapes, in particular childless start nodes.",
  ["src/dom/traversal.c:flo_html_traverseNode", "src/dom/reading/reading.c:flo_html_getTextContent"])
# ---- editing -------------------------------------------------------------
p("appendDocumentNode appends exactly one last child",
  "After appendDocumentNode(parent, node) succeeds, the returned node is new, is the last child of parent, carries the given tag and attributes, and the rest of the tree is unchanged.",
  "every reachable DOM, live parent and node description",
  "Frame conditions range over all other nodes.",
  ["src/dom/appendix.c:flo_html_appendDocumentNode", "src/dom/appendix.c:updateReferences"])
p("prependDocumentNode prepends exactly one first child",
  "After prependDocumentNode(parent, node) succeeds, the returned node is new, is the first child of parent, and the rest of the tree is unchanged.",
  "every reachable DOM, live parent and node description",
  "Frame conditions range over all other nodes.",
  ["src/dom/prependix.c:flo_html_prependDocumentNode", "src/dom/prependix.c:updateReferences"])
p("Adjacent text is merged on append and prepend",
  "Appending (prepending) text next to an existing last (first) text child extends that child with one separating space and adds no node; otherwise a new text node becomes the last (first) child.",
  "every reachable DOM, live parent and text",
  "All child lists and texts.",
  ["src/dom/appendix.c:flo_html_appendTextNode", "src/dom/prependix.c:flo_html_prependTextNode", "src/dom/dom-util.c:flo_html_tryMerge"])
p("Text operations return the node holding the text",
  "appendTextNode and prependTextNode return the identifier of the live node that now holds the text.",
  "every reachable DOM, live parent and text",
  "Only the merge path goes wrong, and only the returned handle shows it.",
  ["src/dom/appendix.c:flo_html_appendTextNode", "src/dom/prependix.c:flo_html_prependTextNode"])
p("removeNode deletes exactly the subtree",
  "removeNode(n) terminates, marks n and all its descendants removed, takes n out of its parent's child list, and leaves every other node, child list and text unchanged.",
  "every reachable DOM and every live non-root node",
  "Recursion over arbitrary subtrees plus frame conditions.",
  ["src/dom/deletion.c:flo_html_removeNode"])
p("removeChildren and setTextContent",
  "removeChildren(n) leaves n with no children and everything outside its subtree unchanged; setTextContent(n,t) leaves n with exactly one child, a text node holding t.",
  "every reachable DOM, live node and text",
  "Arbitrary subtrees.",
  ["src/dom/deletion.c:flo_html_removeChildren", "src/dom/modification.c:flo_html_setTextContent"])
p("appendHTMLFromString appends the parsed fragment",
  "appendHTMLFromString(parent, html) adds the top-level nodes of the parsed fragment, in order, after the existing children of parent (merging a leading text with a trailing text child) and changes nothing else.",
  "every reachable DOM, live parent and fragment",
  "All fragments and all trees.",
  ["src/dom/appendix.c:flo_html_appendHTMLFromStringWithQuery", "src/dom/appendix.c:flo_html_appendHTMLFromString"])
p("prependHTMLFromString prepends the parsed fragment",
  "prependHTMLFromString(parent, html) adds the top-level nodes of the parsed fragment, in order, before the existing children of parent and changes nothing else.",
  "every reachable DOM, live parent and fragment",
  "All fragments and all trees.",
  ["src/dom/prependix.c:flo_html_prependHTMLFromString"])
p("replaceWithDocumentNode puts the new node in the old one's place",
  "replaceWithDocumentNode(old,node) puts a new node at the position of old in its parent's child list; the other children and the rest of the tree are unchanged.",
  "every reachable DOM, live non-root node and node description",
  "All positions and trees.",
  ["src/dom/replacement.c:flo_html_replaceWithDocumentNode", "src/dom/replacement.c:updateReferences"])
p("A replaced node is gone",
  "After a replacement the old node and its descendants are no longer found by queries.",
  "every reachable DOM, live non-root node and query",
  "All subtrees and queries.",
  ["src/dom/replacement.c:updateReferences", "src/dom/query/query-util.c:flo_html_filterNode"])
p("replaceWithHTMLFromString merges text safely",
  "replaceWithHTMLFromString(old, html) succeeds and returns a live node for every fragment, including a single text next to text siblings.",
  "every reachable DOM, live non-root node and fragment",
  "Neighbour combinations of text and elements.",
  ["src/dom/replacement.c:flo_html_replaceWithHTMLFromString"])
p("Inserting an empty fragment changes nothing",
  "append-, prepend- and replaceWithHTMLFromString with a fragment that contains no nodes are safe and leave the tree unchanged (or remove the replaced node).",
  "every reachable DOM and every whitespace/comment-only fragment",
  "All empty fragments.",
  ["src/dom/appendix.c:flo_html_appendHTMLFromString", "src/dom/prependix.c:flo_html_prependHTMLFromString", "src/dom/replacement.c:flo_html_replaceWithHTMLFromString"])
# ---- attributes ----------------------------------------------------------
p("Attribute operations behave like a per-node store",
  "Over any sequence of add/set/remove attribute operations, hasProperty, hasPropKey, hasPropValue, hasBoolProp and getValue answer as a per-node list of (key,value) pairs and boolean names would, where add appends, set and remove affect the first pair with that key.",
  "every history of attribute operations on every node",
  "Histories and name collisions.",
  ["src/dom/modification.c", "src/dom/reading/reading.c", "src/dom/deletion.c:flo_html_removeProperty", "src/dom/reading/reading-util.c"])
p("Attributes of other nodes are untouched",
  "An attribute operation on one node never changes what any attribute query answers about another node.",
  "every reachable DOM, every pair of different nodes, every operation",
  "Quantifies over all other nodes and keys.",
  ["src/dom/modification.c", "src/dom/deletion.c", "src/dom/reading/reading.c"])
# ---- queries -------------------------------------------------------------
p("Compound selectors select exactly the matching nodes",
  "querySelectorAll with a compound selector (a tag or attribute conditions) returns, without duplicates, exactly the nodes satisfying every condition.",
  "every reachable DOM and every compound selector",
  "All DOMs and selectors.",
  ["src/dom/query/query.c:getQueryResults", "src/dom/query/query-util.c:flo_html_getNodesWithoutflo_html_Combinator", "src/dom/query/query-util.c:flo_html_filterNode"])
p("Combinators follow the tree",
  "The child, descendant, adjacent-sibling and general-sibling combinators return exactly the nodes in that relation to a previous result that satisfy the filters.",
  "every reachable DOM, result set and filter list",
  "All trees.",
  ["src/dom/query/query-util.c:flo_html_getFilteredAdjacents", "src/dom/query/query-util.c:flo_html_getFilteredDescendants"])
p("querySelector returns the first match",
  "querySelector returns the first node, in a preorder walk from the root, that is in the result set of querySelectorAll, 0 if that set is empty, and fails with the same status; only if no result is in the document (see C36) is the answer left unwritten.",
  "every reachable DOM and query",
  "All DOMs and queries.",
  ["src/dom/query/query.c:flo_html_querySelector"])
p("Query evaluation terminates with a defined status",
  "querySelectorAll terminates on every query string, never reads outside the query string, and reports unknown names, too many filters and selectors without a first element as errors; blank parts select nothing.",
  "every query string and every reachable DOM",
  "All byte strings as queries.",
  ["src/dom/query/query.c", "include/flo/html-parser/dom/query/query-status.h"])
p("Comma is union",
  "The results of a comma separated query are the union, without duplicates, of the results of its parts.",
  "every reachable DOM and every list of queries",
  "All combinations.",
  ["src/dom/query/query.c:flo_html_querySelectorAll"])
p("Queries never return removed nodes",
  "No query returns a node that was removed from the document.",
  "every reachable DOM and query",
  "All histories.",
  ["src/dom/query/query-util.c:flo_html_getNodesWithoutflo_html_Combinator", "src/dom/deletion.c:flo_html_removeNode"])
p("Class and id selectors compose with combinators",
  "A class or id selector followed by a combinator constrains the ancestor and the rest of the query constrains the result.",
  "every reachable DOM and every such query",
  "All queries of that form.",
  ["src/dom/query/query.c:parseToken", "src/dom/query/query.c:getQueryResults"])
p("Edits addressed by a query without match are refused",
  "An append/prepend/replace addressed by a query that matches nothing reports failure and leaves the DOM unchanged.",
  "every reachable DOM and non-matching query",
  "All queries.",
  ["src/dom/appendix.c", "src/dom/prependix.c", "src/dom/replacement.c"])
# ---- comparison / copying ------------------------------------------------
p("Equality is reflexive and a duplicate is equal",
  "flo_html_equals of a DOM with itself, and of a DOM with its duplicate, reports equality, unless an element has more than 64 attributes of one kind, in which case the failure handler may be taken.",
  "every reachable DOM (within the comparison's set capacity)",
  "All DOMs.",
  ["src/dom/comparison.c:flo_html_equals", "src/dom/dom.c:flo_html_duplicateDom"])
p("Equality is symmetric",
  "flo_html_equals(a,b) reports equality iff flo_html_equals(b,a) does.",
  "every pair of reachable DOMs",
  "All pairs.",
  ["src/dom/comparison.c"])
p("Equality is sound",
  "If flo_html_equals(a,b) reports equality, the two documents have the same shape, node types, tags, texts and attributes.",
  "every pair of reachable DOMs",
  "All pairs of trees.",
  ["src/dom/comparison.c:compareNode", "src/dom/comparison.c:compareProps", "src/dom/comparison.c:compareTags"])
p("A duplicate is independent",
  "Operations on a duplicate never change what is observed through the original, and conversely.",
  "every reachable DOM and operation sequence on the copy",
  "Aliasing shows up only for specific array capacities.",
  ["src/dom/dom.c:flo_html_duplicateDom", "util/include/flo/util/array.h:FLO_COPY_DYNAMIC_ARRAY", "util/include/flo/util/array.h:FLO_PUSH"])
# ---- output --------------------------------------------------------------
p("Buffered output loses and reorders nothing",
  "For every buffer capacity, every sequence of appended strings and flushes and every pattern of partial writes, the bytes delivered to the file descriptor followed by the bytes still buffered are the concatenation of the appended strings, as long as no write reports an error.",
  "every buffer size, append sequence and partial-write schedule",
  "All chunkings and short writes.",
  ["util/src/log.c:flo_appendToBuffer", "util/src/log.c:flo_flushBuffer"])
p("Integers print as their decimal representation",
  "Appending an unsigned or signed 64-bit integer writes exactly its canonical decimal representation.",
  "all 2^64 values",
  "2^64 values.",
  ["util/src/log.c"])
# ---- memory --------------------------------------------------------------
p("Arena allocations are aligned, in range and disjoint",
  "Every block returned by the arena is aligned as requested, has all its bytes inside the arena and shares none with a block returned before; if it does not fit the failure handler is taken (or NULL returned, if that was asked for).",
  "every sequence of allocation requests (sizes, alignments, counts)",
  "All histories.",
  ["util/src/memory/arena.c:flo_alloc"])
p("Dynamic arrays keep their contents",
  "Pushing onto a dynamic array keeps all earlier elements in order and stores the new one inside the allocated capacity.",
  "every push sequence on arrays grown from empty",
  "All lengths and interleavings with other allocations.",
  ["util/include/flo/util/array.h:flo_grow", "util/include/flo/util/array.h:FLO_PUSH"])
p("Growing byte buffers keep their contents",
  "A byte buffer built by successive appends contains exactly the concatenation of the appended strings.",
  "every append sequence",
  "All sizes.",
  ["util/include/flo/util/raw-data.h:flo_addRawData"])
# ---- hash sets -----------------------------------------------------------
p("The growing 16-bit set is a set",
  "Over any sequence of insertions of non-zero values the query-result set contains exactly the inserted values, its length is their number, and every insertion terminates, whatever the hash function does.",
  "every insertion sequence",
  "All probing collisions and growth points.",
  ["src/dom/query/msi-uint16.c", "util/src/hash/msi/common.c", "util/src/hash/msi/uint16-set.c"])
p("The fixed-size string set is a set or aborts",
  "Over any sequence of insertions the string set contains exactly the inserted non-empty strings, as long as fewer than half of its slots are used; beyond that it takes the failure handler.",
  "every insertion sequence",
  "All collisions.",
  ["util/src/hash/msi/string-set.c", "util/src/hash/msi/common.c"])
p("The hash tries are sets and maps",
  "The utility hash tries contain exactly the inserted elements, and iterating one yields each element exactly once.",
  "every insertion sequence",
  "All hash collisions, including full 64-bit ones.",
  ["util/src/hash/trie", "util/include/flo/util/hash/trie/common-iterator.h"])
p("The pool allocator hands out disjoint live chunks",
  "Over any alloc/free sequence every chunk handed out is inside the pool, aligned to the chunk size and different from all chunks still in use.",
  "every alloc/free history with valid frees",
  "All histories.",
  ["util/src/memory/pool-allocator.c"])
p("Directory creation for output paths",
  "flo_createPath creates every directory prefix of the given file path, for relative and absolute paths.",
  "every path",
  "All paths.",
  ["util/src/file/path.c:flo_createPath"])
p("String helpers match their definitions",
  "String equality, splitting, first and last occurrence and hashing behave as their list definitions for all strings.",
  "every string",
  "All strings.",
  ["util/include/flo/util/text/string.h", "util/include/flo/util/hash/hashes.h"])
p("Printing reproduces the element structure",
  "Printing a DOM emits for every node of the tree its start tag, attributes, content and (if the element was written as paired) end tag, in document order.",
  "every reachable DOM",
  "All trees and tag histories.",
  ["src/dom/writing.c:printNode"])
p("Printing then parsing is stable",
  "Parsing the printed form of a parsed document gives an equal document.",
  "every parsed document",
  "All documents.",
  ["src/dom/writing.c", "src/parser.c"])
p("Traversal counters never overflow",
  "The 16-bit loop counters used in the traversal functions reach the end of their tables in every reachable DOM.",
  "every reachable DOM",
  "Needs tables of more than 65535 entries.",
  ["src/dom/traversal.c"])
p("Pointers print as hexadecimal",
  "Appending a pointer writes all hexadecimal digits of its value.",
  "all 2^64 values",
  "2^64 values.",
  ["util/src/log.c:flo_appendPtr"])
p("The buddy allocator keeps blocks disjoint",
  "Over any alloc/free sequence the buddy allocator hands out aligned blocks inside the region, disjoint from those in use.",
  "every alloc/free history",
  "All histories.",
  ["util/src/memory/buddy-allocator.c"])
p("Identifiers last for documents below 64 KiB",
  "Parsing a document of at most 65533 bytes never fails for lack of node or name identifiers; parsing a fragment into a DOM with as many free identifiers as the fragment has bytes does not either.",
  "every byte string within the size bound; every DOM with room",
  "The counters depend on how many nodes and distinct names any input produces.",
  ["src/dom/dom-util.c", "src/parser.c:flo_html_createNode", "src/dom/util/string-auto-uint16-map.c"])
p("Write errors neither corrupt memory nor duplicate output",
  "After a failing write the writer stays inside its buffer, loses nothing and delivers nothing twice.",
  "every append sequence, capacity and pattern of short writes and errors",
  "All positions of the failing write.",
  ["util/src/log.c:flo_flushBuffer", "util/src/log.c:flo_appendToBuffer"])
p("Small integers print as decimals",
  "Logging an int or short value through the generic logging macro writes its decimal representation.",
  "all 2^32 values",
  "All values, including negative ones.",
  ["util/include/flo/util/log.h:FLO_LOG_DATA_COMMON"])
p("Doubles print six decimals",
  "Behind the decimal point of a printed double there are always exactly six digits, those of the number of millionths.",
  "all fractions below one million millionths",
  "10^6 values; the zero padding depends on the number of digits.",
  ["util/src/log.c:flo_appendDouble"])
p("A removed node is detached",
  "After flo_html_removeNode or flo_html_removeChildren, no removed node has a parent, a first child, a next or a previous sibling.",
  "every reachable DOM, every node of it, every node of the removed subtree",
  "Needs an invariant relating the redundant link tables over all edit histories.",
  ["src/dom/deletion.c:flo_html_removeNode", "src/dom/deletion.c:flo_html_removeChildren", "src/dom/traversal.c"])

p("Resetting a pool frees every chunk once",
  "After a pool is reset all its chunks are available again and each of them is handed out once before any is handed out again.",
  "every pool and allocation history before the reset",
  "Depends on which chunks were free when the pool was reset.",
  ["util/src/memory/pool-allocator.c:flo_freePool"])
p("The buddy allocator refuses what does not fit",
  "A request for more bytes than the managed memory has is refused: the failure handler is taken or NULL returned.",
  "every history and every request (size, count)",
  "The product size * count ranges over all pairs of 64-bit numbers.",
  ["util/src/memory/buddy-allocator.c:flo_buddyAlloc"])
p("String copying stays in bounds",
  "Appending or copying strings writes only inside the destination and leaves exactly the source bytes there.",
  "every pair of strings and destination length",
  "Every combination of lengths, including equal ones.",
  ["util/include/flo/util/text/string.h:FLO_STRING_APPEND", "util/include/flo/util/text/string.h:stringCopy"])
p("Map insertion returns the value of the key",
  "Inserting into a trie map returns the value now stored under the key: the given one for a new key, the old one for a present key.",
  "every insertion history and key",
  "Depends on the whole insertion history and on hash collisions.",
  ["util/include/flo/util/hash/trie/string-uint16-map.h", "util/src/hash/trie/string-uint16-map.c"])
p("Insertions into the 16-bit set look at few nodes",
  "An insertion into the trie set of 16-bit numbers looks at no more than nine nodes, whatever was inserted before.",
  "every insertion history",
  "The longest path depends on the collision structure of the hash over all 65536 keys.",
  ["util/src/hash/trie/uint16-set.c", "util/include/flo/util/hash/hashes.h"])
p("Reading a file gives its bytes",
  "Reading a file returns FILE_SUCCESS with exactly the bytes of the file in the arena, or the status of what failed; memory outside the free part of the arena is never touched.",
  "every file (end position and deliverable bytes) and every arena",
  "Ranges over all files, arenas and behaviours of the file system.",
  ["util/src/file/read.c:flo_readFile"])
p("File operations equal string operations",
  "Parsing or inserting a file equals parsing or inserting its contents as a string; if the file cannot be read, NULL or the error node is returned and the DOM is unchanged.",
  "every file, selector and DOM",
  "All file contents and DOMs.",
  ["src/dom/dom.c:flo_html_createDomFromFile", "src/dom/appendix.c:flo_html_appendHTMLFromFileWithQuery", "src/dom/prependix.c:flo_html_prependHTMLFromFileWithQuery", "src/dom/replacement.c:flo_html_replaceWithHTMLFromFileWithQuery"])
p("Writing to a file writes the printed document",
  "When flo_html_writeHTMLToFile reports success, the file named by the path contains exactly the printed document; printing to standard output delivers it completely.",
  "every reachable DOM, path, and pattern of short writes and errors",
  "Ranges over all documents and all splits of the output into writes.",
  ["src/dom/writing.c:flo_html_writeHTMLToFile", "src/dom/writing.c:flo_html_printHTML"])
p("Edits fail only when identifiers run out",
  "A mutating call whose preconditions hold returns normally whenever the DOM still has room for as many nodes and names as the call can add (one per byte of a fragment, one per attribute of an element, one for a text); a whole session of a document and edits that add up to at most 65533 never takes the failure exit, whatever the order and targets of the calls.",
  "every reachable DOM and every mutating call; every document and every finite sequence of mutating calls",
  "The limit is only reached after tens of thousands of calls; below it, success must hold for every history.",
  ["src/dom/dom-util.c:flo_html_createNode", "src/dom/appendix.c", "src/dom/prependix.c", "src/dom/replacement.c", "src/dom/modification.c", "src/dom/util/string-auto-uint16-map.c"])

p("Free memory can be allocated again",
  "A buddy allocator grants every request for which a large enough free block exists; in particular, once all blocks have been freed it grants whatever a fresh allocator would grant, and a block that was just freed can be allocated again with the same size.",
  "every allocator size and every history of allocations and frees",
  "Fragmentation and the merge order depend on the whole history.",
  ["util/src/memory/buddy-allocator.c:flo_buddyAlloc", "util/src/memory/buddy-allocator.c:flo_findBestBuddy", "util/src/memory/buddy-allocator.c:flo_coalesceBuddies", "util/src/memory/buddy-allocator.c:flo_freeBuddy"])

p("The form of a tag name is fixed at its first use",
  "Whether elements of a name are written with or without an end tag is recorded once per name, at the first use of the name (in document order while parsing, later by the edit that uses it first); no edit, insertion of HTML or duplication ever changes the record of a name, names the operation uses for the first time get exactly the form given there, other names none, and printing and comparison of every element follow the record.",
  "every clean source, every reachable DOM, every mutating call with any arguments (for the exact effect of an HTML insertion: every clean fragment), every tag name",
  "Tests print a few documents; they cannot show that no history of edits ever flips the record of a name, nor what an inconsistent source prints.",
  ["src/dom/modification.c:flo_html_setTagOnDocumentNode", "src/parser.c:flo_html_parseDocumentElement", "src/dom/writing.c:flo_html_printHTML"])

p("Allocators touch only the memory they manage",
  "Creating, allocating from and giving back to a buddy allocator or a pool reads and writes no byte outside the memory handed to it: whatever the bytes outside are, the operation returns the same, leaves the same inside and leaves the outside as it was.",
  "every managed memory of admissible size, every history of allocations and frees, every contents of the rest of memory",
  "A test sees one memory image; a read just past the end is invisible unless the neighbour bytes happen to matter.",
  ["util/src/memory/buddy-allocator.c:flo_buddyAlloc", "util/src/memory/buddy-allocator.c:flo_coalesceBuddies", "util/src/memory/pool-allocator.c:flo_poolAlloc", "util/src/memory/pool-allocator.c:flo_freePoolNode"])

p("Markup errors are tolerated in a fixed way",
  "A document with markup errors still parses, and the result is fixed: a '<' that starts no tag and an end tag that does not name the innermost open element become text without the '<'; an end tag outside of every element disappears; anything up to '>' may follow the name in an end tag; an element that is never closed contains everything up to the end of the input.",
  "every source built from well-formed pieces and these errors, of any size and nested to any depth up to 255",
  "Errors can occur at every place of a document and in every combination.",
  ["src/parser.c:isEndDocumentTag", "src/parser.c:flo_html_parse", "src/parser.c:parseTextNode"])

p("Names are never forgotten",
  "An edit never removes or renumbers a tag name, attribute name or value the DOM has seen; therefore a query that is answered before an edit is answered after it, and a query refused for its form is refused for the same reason.",
  "every reachable DOM, every mutating call and every query string",
  "Ranges over all histories and all query strings.",
  ["src/dom/util/string-auto-uint16-map.c", "src/dom/query/query.c:flo_html_querySelectorAll", "src/dom/modification.c"])

p("The status report shows the whole state",
  "flo_html_printDomStatus prints every tag name, attribute name and value with its identifier exactly once, every node with its kind and tag identifier, every registry entry, every attribute row and every link row, with the right totals, and has delivered all of it when it returns.",
  "every reachable DOM and every pattern of short writes",
  "The tables are hash structures whose listing order and shape depend on the whole history.",
  ["src/dom/writing.c:flo_html_printDomStatus", "src/dom/util/string-auto-uint16-map.c"])

p("The difference report tells the difference",
  "Called with the nodes flo_html_equals reports, flo_html_printFirstDifference prints what differs between them (kind, text, tag, boolean attributes, attribute names, values), with the right contents of both sides.",
  "every pair of reachable DOMs, every pair of nodes and every pattern of short writes",
  "All pairs of documents; the first difference may be anywhere.",
  ["src/dom/comparison.c:flo_html_printFirstDifference", "src/dom/comparison.c:flo_html_equals"])

p("Append functions return what they appended",
  "Each append function of the log outputs the text of its argument, padded to the minimal size, and returns the number of characters it output, not counting the end of line.",
  "every argument, every buffer size and contents, every sequence of calls, every pattern of short writes",
  "Ranges over all 64-bit numbers, strings, sizes and buffer positions.",
  ["util/src/log.c:flo_appendToBufferMinSize", "util/src/log.c:flo_appendRepeatedCharToBuffer", "util/src/log.c:flo_appendDouble", "util/src/log.c:flo_appendCStr"])

p("Queries write only free memory",
  "A query changes no byte outside the free part of the arena it is given. flo_html_querySelectorAll either takes the arena's failure exit, or reports an error and leaves the arena's position alone, or returns an array of exactly the matching identifiers at the first suitably aligned free address, with the arena's position just behind it; the copy into place never overlaps its source. flo_html_querySelector gives the same node whatever the free memory contained.",
  "every reachable DOM, every query string, every arena and every contents of its memory",
  "The sets of a query live in the arena, move when they grow and share memory with the arena they are copied to; all documents, queries, sizes and garbage contents are covered.",
  ["src/dom/query/query.c:flo_html_querySelectorAll", "src/dom/query/query.c:flo_html_querySelector", "src/dom/query/msi-uint16.c:flo_msi_html_toArray", "util/src/memory/arena.c:flo_copyToArena"])

p("A query succeeds in an arena of known size",
  "With (2n + 3) * 1310720 free bytes, n being the length of the query, a query never takes the arena's failure exit, whatever the document; with fewer than 512 free bytes every query takes it.",
  "every reachable DOM, every query string and every arena",
  "Peak memory depends on how all the sets of a query grow, for every document and query.",
  ["src/dom/query/query.c:flo_html_querySelectorAll", "src/dom/query/query-util.c:flo_html_getFilteredDescendants", "src/dom/query/msi-uint16.c:flo_msi_html_uint16Insert"])

p("Parsing builds the DOM in the arena",
  "Given a source text outside the arena's free memory, flo_html_createDom either takes the arena's failure exit or returns NULL exactly where it should, or a DOM whose node, link, attribute and name tables, read byte by byte from memory, are those the source describes, and whose name maps find every name. It writes to no byte outside the free part, and later writes to memory still free do not disturb the DOM.",
  "every source text, every arena, every contents of its memory",
  "The tables move while they grow and share one arena with the texts and the map nodes; an overlap or a stale pointer shows only for particular interleavings of growth.",
  ["src/dom/dom.c:flo_html_createDom", "src/parser.c:flo_html_parse", "src/dom/util/string-auto-uint16-map.c:flo_trie_insertStringAutoUint16Map", "util/include/flo/util/array.h:FLO_PUSH"])

p("Parsing memory is linear in the source",
  "flo_html_createDom takes at most 840 + 320 n bytes of the arena for a source of n bytes and never takes the failure exit for lack of memory if that many are free; with n at most 65533 and no quote at the end of the source it succeeds.",
  "every source text and every arena",
  "The worst source is unknown and the amount depends on the growth of eleven arrays; all sources and sizes are covered.",
  ["src/dom/dom.c:flo_html_createDom", "src/parser.c:flo_html_parse", "util/include/flo/util/raw-data.h:flo_addRawData"])

p("Failing calls explain themselves on the standard error stream",
  "A query that is refused puts on stderr the reason, the name of the status and a closing line, after one warning per attribute condition it dropped (at most one per '['); a query without attribute conditions says something exactly if it is refused. The edits addressed by a query add a line that names the selector, the file functions a message with the reason and the file name. The messages are flushed when the call returns, and apart from them the call answers and does exactly what it does without them.",
  "every reachable DOM, query string, edit, file outcome, buffer state and splitting of the writes",
  "All query strings, buffer fill levels and short writes.",
  ["src/dom/query/query.c:flo_html_querySelectorAll", "src/dom/appendix.c:flo_html_appendTextNodeWithQuery", "src/dom/prependix.c:flo_html_prependTextNodeWithQuery", "src/dom/replacement.c:flo_html_replaceWithTextNodeWithQuery", "src/dom/dom.c:flo_html_createDomFromFile", "src/dom/writing.c:flo_html_writeHTMLToFile"])

p("Every code has its own text",
  "The functions that give the text of a query status, file status, comparison status, set comparison status or node type answer for every number: each code of the enumeration has a name of its own, every other number the text for unknown codes; they never read beyond their tables.",
  "every number passed as a code",
  "All integers, also those that are no codes.",
  ["include/flo/html-parser/dom/query/query-status.h:flo_html_queryingStatusToString", "util/include/flo/util/file/file-status.h:flo_fileStatusToString", "src/comparison-status.c:flo_html_comparisonStatusToString", "include/flo/html-parser/node/node.h:flo_html_nodeTypeToString", "util/src/hash/hash-comparison-status.c:flo_hashComparisonStatusToString"])

p("The two standard streams are independent",
  "After any interleaving of output operations on stdout and stderr each stream has received exactly the texts sent to it, in order, delivered or still in its buffer.",
  "every interleaving of operations, buffer states and write results without errors",
  "Arbitrary histories on two shared buffers.",
  ["util/src/log.c:flo_getWriteBuffer", "util/include/flo/util/log.h:FLO_LOG"])

p("Editing works in the arena's memory",
  "After any history of creating a DOM in an arena, taking memory from the same arena for the caller's own data, and editing with strings that lie in the caller's memory, the tables in memory are those of the DOM. Each mutating function, called on memory, either takes the failure exit for lack of memory or identifiers or returns the value and makes the DOM the abstract function gives; it never changes a byte of the caller's memory, only takes memory and leaves the arena's end. An allowed call never leaves the tables or the arena, even where it goes on reading through a pointer into an array that has moved.",
  "every history, DOM, arena, placement of the caller's data, mutating function and argument",
  "Arbitrary histories, interleaved allocations and memory layouts.",
  ["src/dom/appendix.c:flo_html_appendHTMLFromString", "src/dom/prependix.c:flo_html_prependHTMLFromString", "src/dom/replacement.c:flo_html_replaceWithHTMLFromString", "src/dom/modification.c:flo_html_addTextToTextNode", "src/dom/deletion.c:flo_html_removeNode", "src/dom/dom-util.c:flo_html_connectOtherNodesToParent"])

p("The memory an edit needs is linear in the DOM and its arguments",
  "For a DOM of measure m (its table entries, weighted, and the characters of its texts) and string arguments of k bytes in all, one more for each string, an edit takes at most 3 m + 1000 k + 1000 bytes of the arena and never takes the failure exit for lack of memory if that many are free; with identifiers left, an allowed edit then succeeds.",
  "every history, DOM, arena, mutating function and argument",
  "The worst case depends on the growth of ten arrays and on two merges of texts; all sizes are covered.",
  ["src/dom/appendix.c:flo_html_appendTextNode", "src/dom/replacement.c:flo_html_replaceWithHTMLFromString", "util/include/flo/util/array.h:flo_grow", "src/dom/modification.c:flo_html_setTagOnDocumentNode"])

p("A duplicate in memory is the original",
  "Duplicating a DOM whose tables lie in an arena, among other DOMs and data of the program, takes the failure exit for lack of memory or gives a DOM whose tables in memory, rows, names and numbers of names are those of the original. It writes only memory that was free: the original, all other DOMs and the data of the program are unchanged. The memory it takes is at most the measure of the DOM and 80 bytes, and with so much free it succeeds.",
  "every program history with one arena, DOM and arena state",
  "Arbitrary histories, sizes and memory layouts.",
  ["src/dom/dom.c:flo_html_duplicateDom", "util/include/flo/util/array.h:FLO_COPY_DYNAMIC_ARRAY", "util/include/flo/util/memory/arena.h:FLO_NEW"])

p("DOMs that share an arena do not disturb each other",
  "In any program that parses, duplicates, edits and takes memory with one arena, every DOM's tables in memory stay those of that DOM: an operation on one DOM changes no other, nor the data of the program. An edit on memory returns what it returns on the abstract DOM, or takes the failure exit.",
  "every program history with one arena, number of DOMs, operation and argument",
  "Arbitrary interleavings of operations on any number of DOMs whose growing arrays lie between each other.",
  ["src/dom/dom.c:flo_html_createDom", "src/dom/dom.c:flo_html_duplicateDom", "src/dom/appendix.c:flo_html_appendHTMLFromString", "src/dom/modification.c:flo_html_addTextToTextNode", "util/include/flo/util/array.h:flo_grow"])

p("A duplicate can be edited like the DOM it was made from",
  "Any edit of a duplicate on memory gives the DOM it gives on the abstract duplicate, or takes the failure exit; the original is unchanged.",
  "every program history with one arena, duplicate, edit and argument",
  "Arbitrary shapes of DOMs, also those with empty tables, and histories.",
  ["src/dom/dom.c:flo_html_duplicateDom", "util/include/flo/util/array.h:FLO_COPY_DYNAMIC_ARRAY", "util/include/flo/util/array.h:flo_grow", "src/dom/appendix.c:flo_html_appendTextNode"])

p("Every input means what the reference reader says",
  "A short reader of HTML that is defined on every byte string (it works on the bytes that are left, yields tokens, and makes trees of them; comments, stray '<', stray and mismatched end tags, unclosed elements, quotes without end and every other error included) says what createDom does: it returns a document with exactly these trees, or NULL, or reads outside the input. Inputs of up to 65533 bytes never take the failure exit. In particular the inputs that give NULL and those that read outside are known exactly, and so are the trees, the forms of names and the printed text of every other input.",
  "all byte strings",
  "Any input may be malformed in any way, at any place and depth; no set of samples shows that the parser has no further behaviour.",
  ["src/dom/dom.c:flo_html_createDom", "src/parser.c:flo_html_parse", "src/parser.c:parseTextNode", "src/parser.c:parseDocumentNode", "include/flo/html-parser/util/parse.h:FLO_PARSE_SKIP_COMMENT"])

p("Every inserted HTML string means what the reference reader says",
  "appendHTMLFromString, prependHTMLFromString and replaceWithHTMLFromString insert, for every string, exactly the trees the reference reader finds in it, with texts at the borders merged with text neighbours; a string that nests too deeply is refused with 0 and changes nothing; a string without any tree and a string that ends in a quote opening an attribute behave like the shortest such string. The only dependence on memory outside of the string is the answer found for '</' outside of every element.",
  "all reachable documents, nodes, byte strings and contents of the memory outside the nesting stack",
  "As C93, for every document the string is inserted into.",
  ["src/dom/appendix.c:flo_html_appendHTMLFromString", "src/dom/prependix.c:flo_html_prependHTMLFromString", "src/dom/replacement.c:flo_html_replaceWithHTMLFromString", "src/parser.c:flo_html_parseExtra"])

p("The editing API is a document machine",
  "A page is a tree of numbered nodes (texts and elements with their attributes) with one simple tree operation per editing function: set or add attributes, extend a text, rename, set the text content, remove a node or its children, append, prepend, or put new nodes (an element, a text or the trees of an HTML string) in the place of a node, texts at the borders being merged with text neighbours; new nodes get the next numbers in document order. For every input that stands for a document and every sequence of editing calls that name nodes of the page of the right kind (and are not one of the two replacements that go wrong, C27), within 65533 bytes and names in total, every call succeeds, and the DOM, as seen through the navigation and reading functions, is the page after the same operations: the same identifiers, children, texts, names and attributes; it prints as the page prints, every name in the form of its first use. A duplicate is the same page.",
  "all inputs, all sequences of editing calls of any length and all of their arguments",
  "The state after a sequence of edits depends on all of them; merging and numbering interact over arbitrary histories.",
  ["src/dom/dom.c:flo_html_createDom", "src/dom/appendix.c:flo_html_appendHTMLFromString", "src/dom/prependix.c:flo_html_prependTextNode", "src/dom/replacement.c:flo_html_replaceWithHTMLFromString", "src/dom/deletion.c:flo_html_removeNode", "src/dom/modification.c:flo_html_setTextContent", "src/dom/modification.c:flo_html_setTag", "src/dom/writing.c:flo_html_printHTML"])

p("Edits can be undone and leave no trace",
  "An element, with whatever is in it, that has been appended or prepended and is then removed leaves the document as it was: the same nodes with the same identifiers, children, texts, names and attributes, and the same printed text. Whatever is done to a node that has a parent and to the nodes below it, in any number of calls, is gone when the node is removed: the document and its printed text are those that result from removing the node at once.",
  "all sessions as in C95, all elements and HTML strings, all sequences of calls below a node",
  "Side effects of edits (merged texts, registered names, used identifiers, stale rows) would show only after particular histories.",
  ["src/dom/deletion.c:flo_html_removeNode", "src/dom/appendix.c:flo_html_appendDocumentNode", "src/dom/appendix.c:flo_html_appendHTMLFromString", "src/dom/prependix.c:flo_html_prependHTMLFromString", "src/dom/writing.c:flo_html_printHTML"])

p("Attribute edits are independent of all other edits",
  "An attribute call and any other editing call (other than an attribute call for the same node), in either order, lead to the same document with the same identifiers and the same printed text, if both are in order either way.",
  "all sessions as in C95, all attribute calls and all editing calls",
  "All pairs of calls in all documents.",
  ["src/dom/modification.c:flo_html_addPropertyToNode", "src/dom/modification.c:flo_html_setPropertyValue", "src/dom/deletion.c:flo_html_removeProperty", "src/dom/appendix.c:flo_html_appendHTMLFromString", "src/dom/replacement.c:flo_html_replaceWithHTMLFromString"])

p("An edit changes the printed text only where it is made",
  "If an editing call is about a node or about nodes below it, and does not take the node away, then the printed text before and behind the text of that node stays as it was, and between them stands what the node now prints as; if the node is within an element that is printed without content, the printed text does not change.",
  "all sessions as in C95, all nodes and all editing calls below them",
  "Names are registered globally and texts are merged with neighbours, so an edit could change text anywhere.",
  ["src/dom/writing.c:flo_html_printHTML", "src/dom/modification.c:flo_html_setTag", "src/dom/replacement.c:flo_html_replaceWithTextNode", "src/dom/appendix.c:flo_html_appendTextNode"])

p("Every double can be logged, and prints within a millionth",
  "Appending a double to the log works for every double. A finite number below 2^63 in absolute value is written as a minus sign if it is negative, a decimal integral part, a point and six digits; the number written differs from the double by less than one millionth, and below 2^20 it is the nearest multiple of a millionth (up to a thousandth of a millionth). Larger numbers and the infinities are written as inf, with their sign.",
  "all doubles, every buffer size and contents, every pattern of short writes",
  "2^64 values; every operation is rounded, and an error shows only where roundings add up.",
  ["util/src/log.c:flo_appendDouble"])

p("Only elements have attributes",
  "After parsing any input and any history of editing calls in which the attribute functions name elements, the root and every text have no attributes, and the reading functions say so for every name and value. (The functions do not check: an attribute set on a text is kept there.)",
  "all inputs, all histories of editing calls (the HTML strings included) in which attribute calls name elements",
  "Attributes are rows in global tables keyed by node numbers; a row with a wrong number would show only on some later read.",
  ["src/dom/modification.c:flo_html_addPropertyToNode", "src/dom/modification.c:flo_html_addBooleanPropertyToNode", "src/dom/reading/reading.c:flo_html_hasPropKey", "src/dom/reading/reading.c:flo_html_getValue", "src/parser.c:parseDocumentNode"])

p("A query selects what its text says, on the page the session has built",
  "After any input and any sequence of editing calls as in C95 (attribute calls naming elements), a well-formed query is answered with exactly those nodes of the resulting page that it selects there, each once; what it selects is given by the tags, attributes and children of the page alone. It is refused only if one of its parts selects nothing on the page. On a freshly parsed document the answer contains nothing else; after edits it can contain nodes that are no longer on the page.",
  "all inputs, all sessions as in C95, all well-formed queries, every answer to reads of a text's tag that is not a tag in use",
  "Queries read the tables left behind by the whole history, not the page.",
  ["src/dom/query/query.c:flo_html_querySelectorAll", "src/dom/query/query-util.c:flo_html_getNodesWithoutflo_html_Combinator", "src/dom/query/query-util.c:flo_html_getFilteredDescendants", "src/dom/dom.c:flo_html_createDom"])

p("Everything that can be read describes the page",
  "After any input and any sequence of editing calls as in C95: first child, parent, next and previous answer as the page says, for every node of it; walking the document visits the nodes of the page in document order; walking from a node visits the part of the page at that node, and its text content is the texts below it - except for a childless node followed by a sibling, where both go on to the end of the page; and (attribute calls naming elements) the attribute readers answer as the page says, for all keys, values and names.",
  "all inputs, all sessions as in C95, all nodes of the page, all names",
  "Each reader looks at other tables; agreement with one page must hold after every history.",
  ["src/dom/traversal.c:flo_html_getFirstChild", "src/dom/traversal.c:flo_html_traverseDom", "src/dom/traversal.c:flo_html_traverseNode", "src/dom/reading/reading.c:flo_html_getTextContent", "src/dom/reading/reading.c:flo_html_getValue", "src/dom/reading/reading.c:flo_html_hasProperty"])

p("Comparison is a statement about two pages",
  "Comparing any two documents, however edited (attribute calls naming elements), reports equality exactly if their pages are alike: the same shape, the same texts, and elements of the same name, form, boolean attributes, keys and values; otherwise it names the first nodes in document order at which the pages differ. Pages with the same trees and the same forms are reported equal whatever their histories and node numbers. The only other outcome is the failure handler, if an element has more than 64 attributes of one kind.",
  "all pairs of documents with any histories",
  "The comparison works on interned numbers that depend on the whole history of both documents.",
  ["src/dom/comparison.c:flo_html_equals", "src/dom/dom.c:flo_html_createDom"])

p("What editing calls return can be read off the page",
  "In a session as in C95, appending (an element, a text or an HTML string) returns the first of the new children, or the child that was last if all that came was a text merged into it; prepending an element or an HTML string returns what is then the first child; replacing with an HTML string returns the first of the new children, and if all that came was a text merged away, the child before it (0 at the end). Prepending a text and replacing with an element or a text return a fresh identifier, which is not on the page if the text was merged away (C20). Setting a property returns whether the element had the key. All other calls return 0.",
  "all inputs, all sessions as in C95, every call of it",
  "Whether a new text becomes a node or is merged depends on the neighbours left by the whole history.",
  ["src/dom/appendix.c:flo_html_appendTextNode", "src/dom/prependix.c:flo_html_prependTextNode", "src/dom/replacement.c:flo_html_replaceWithTextNode", "src/dom/appendix.c:flo_html_appendHTMLFromString", "src/dom/modification.c:flo_html_setTag"])

p("A whole session in memory is a session on the page",
  "A program parses a source and makes editing calls with strings outside of the arena. Either some call jumps to the failure handler because the arena is used up, or the session runs to its end: the tables in memory are those of a document that is the page the session describes and prints as it, every call has returned what the page says, no byte outside of the arena has changed, and whatever happens to the free part of the arena afterwards changes nothing.",
  "all arenas, all sources, all sessions as in C95 with strings outside of the arena",
  "Growing tables moves them; a pointer kept over one growth, or a string read after being overwritten, shows only in some session.",
  ["src/dom/dom.c:flo_html_createDom", "src/dom/appendix.c:flo_html_appendTextNode", "util/src/memory/arena.c", "src/dom/modification.c:flo_html_addPropertyToNode"])

p("A refused HTML string changes nothing on the page, and the session goes on",
  "In a session as in C95 any HTML string may also be one that nests more than 256 elements. The call returns 0 and the page stays as it is; the nodes read before the refusal keep their identifiers, so that the next node gets a number behind them, and the tag names read keep the form of their first use. All later calls work on that page as in C95 and C104, in memory as in C105.",
  "all inputs, all sessions of editing calls in which any strings are refused",
  "What a refused parse leaves behind shows only in later calls, and needs 257 nested elements.",
  ["src/parser.c:flo_html_parseExtra", "src/dom/appendix.c:flo_html_appendHTMLFromString", "src/dom/prependix.c:flo_html_prependHTMLFromString", "src/dom/replacement.c:flo_html_replaceWithHTMLFromString"])

p("A whole session fits in an arena of a size known beforehand",
  "Given the length n of the source, the number N of calls and the total length S of their strings (one more for each), an arena of sessionRoom(n, N, S) bytes is enough for a session as in C106 with strings outside of the arena: no call jumps to the failure handler, everything said in C105 and C106 holds at the end, and no more than that many bytes have been taken.",
  "all arenas, all sources, all sessions as in C106 with strings outside of the arena and at most 65533 bytes of HTML and new nodes",
  "The memory taken depends on the growth of nine tables and the string sets over the whole history.",
  ["src/dom/dom.c:flo_html_createDom", "src/dom/appendix.c:flo_html_appendHTMLFromString", "util/src/memory/arena.c", "src/dom/dom-util.c"])

p("Adding a child records one parenthood",
  "Adding an element to a node adds one row to the table of parents, at whichever end of the children it is added, so that n additions add n rows. (Prepending violates this: it records the parent of every existing child again, so that n elements prepended to a node with k children add n*k + n*(n+1)/2 rows; appending keeps it.)",
  "all reachable documents, all nodes, all elements, any number of additions",
  "The repeated rows agree with the old ones, so no reader's answer shows them; only the amount of memory does, after many calls.",
  ["src/dom/prependix.c:flo_html_prependDocumentNode", "src/dom/appendix.c:flo_html_appendDocumentNode", "src/dom/dom-util.c"])

p("An edit addressed by a query edits the first node the query selects",
  "On the page a session has built (C106), the single-result query gives the first node, in document order, of those the query selects there. A session in which editing functions are addressed by queries (well formed, each part selecting something on the page of that moment) does the same, call by call, returning the same values, as the session in which every query is replaced by that node - also if nodes that are no longer on the page match the query.",
  "all inputs, all sessions as in C106 with any edits addressed by well-formed queries, every answer to reads of a text's tag that is not a tag in use",
  "Which node is edited depends on hash tables holding also removed nodes, and on a walk through the page built by the whole history.",
  ["src/dom/query/query.c:flo_html_querySelector", "src/dom/appendix.c:flo_html_appendTextNodeWithQuery", "src/dom/prependix.c:flo_html_prependDocumentNodeWithQuery", "src/dom/replacement.c:flo_html_replaceWithHTMLFromStringWithQuery"])

p("The answers of the buddy allocator depend on the requests alone",
  "The pointers a buddy allocator returns, relative to the start of its memory, and which requests it refuses, are determined by the size of the memory and the sequence of requests and returned blocks: what the memory contained, what is written into the blocks and whether they are zeroed has no influence. They are the answers of a machine on lists of block sizes.",
  "every memory of admissible size, every initial contents, every sequence of allocations, frees and writes",
  "Tests compare a few sequences on one memory; the statement quantifies over all sequences and all contents.",
  ["util/src/memory/buddy-allocator.c:flo_buddyAlloc", "util/src/memory/buddy-allocator.c:flo_freeBuddy", "util/src/memory/buddy-allocator.c:flo_findBestBuddy", "util/src/memory/buddy-allocator.c:flo_coalesceBuddies"])

p("Looking up a name compares it with few of the names in the table",
  "Looking up a tag name, attribute name or value in a document compares it with at most 32 names of the table that have another hash, whatever the number of names (there are four links per entry and two hash bits choose one). (Violated: the name with identifier v is compared with the v names up to it, in their order, and a new name with all of them, so that looking up n names takes n(n+1)/2 comparisons.)",
  "all reachable documents, all names, all four tables",
  "The answers are right, so that tests of the answers pass; the number of comparisons grows with the number of names, and differs from a tree's only beyond small tables.",
  ["src/dom/util/string-auto-uint16-map.c:flo_trie_insertStringAutoUint16Map", "src/dom/util/string-auto-uint16-map.c:flo_trie_containsStringAutoUint16Map", "util/include/flo/util/hash/hashes.h"])

p("UTF-8 in, UTF-8 out",
  "If the source is the UTF-8 encoding of some text, then every tag name, attribute name, value and text of the document is UTF-8 and what is printed is UTF-8; editing calls whose strings are UTF-8 keep it so: no character is ever cut in two. (Violated in one case, proved to be the only one: a source or fragment that ends in a character outside of ASCII within quotes that are not closed loses its last byte.)",
  "all inputs and fragments in UTF-8, all sessions of editing calls with strings in UTF-8",
  "The lexer works on bytes; that none of its boundaries falls within a character has to hold for every position of every character.",
  ["src/parser.c:flo_html_parse", "src/dom/writing.c:flo_html_printHTML", "src/dom/appendix.c:flo_html_appendHTMLFromString"])

p("Only markup bytes and known names are interpreted",
  "Apart from white space, the bytes ! \" ' - / < = >, which bytes are letters, and the names of the elements without content and !DOCTYPE, no byte means anything: if all strings of a session (source, fragments, names, values, texts) are renamed by an injective renaming of bytes that keeps these, the session is accepted or refused as before, every call returns the same value, the nodes have the same identifiers, and every name, value and text and what is printed is the renamed one; queries renamed likewise (keeping also # * + , . [ ] ~ and the names class and id) select the same nodes of the page. In particular a change from one single-byte extension of ASCII to another commutes with everything.",
  "all neutral renamings of bytes, all inputs of at most 65533 bytes, all sessions of editing calls as in C106",
  "The statement relates two runs on any pair of renamed inputs.",
  ["src/parser.c:flo_html_parse", "src/parser.c:flo_html_parseExtra", "src/dom/writing.c:flo_html_printHTML", "src/dom/util/string-auto-uint16-map.c:flo_trie_insertStringAutoUint16Map"])

p("Documents that show the same page are interchangeable",
  "Two documents with different histories may hold different tables and yet show the same page: the same nodes with the same names, attributes, texts and children, the same next identifier and the same forms of tag names. Then every navigation function, the text content and the attribute readers give the same for the nodes of the page, queries that select something select the same nodes of the page, comparing the two finds no difference, and any further editing calls return the same values on both, leave both with the same page and print the same.",
  "all pairs of reachable documents that show the same page, all sessions of editing calls as in C106 that replace attribute values on elements only",
  "The statement relates two runs after any two histories; what a call reads in the tables of a long history cannot be enumerated.",
  ["src/dom/appendix.c:flo_html_appendHTMLFromString", "src/dom/deletion.c:flo_html_removeNode", "src/dom/modification.c:flo_html_setPropertyValue", "src/dom/writing.c:flo_html_printHTML"])

p("Strings given as data stay data",
  "Names, values and texts handed to the editing functions are data: when the page is printed and the text is read again, the same elements stand in the same nesting with the same attributes, and the text is the same; no string turns into markup. (Violated: nothing is escaped on output, so a text with < or a value with \" becomes elements and attributes. It is proved for harmless strings: texts without < and with normalised white space, values without \", well-formed names; > & and both quotes in texts and > < & and ' in values are harmless.)",
  "all reachable documents that show a page of harmless strings whose elements are printed in forms that fit them, within the reader's limits; all sessions of editing calls with harmless strings",
  "An injection is one string among all strings at one place among all places of all pages; the statement relates the printer and the reader over all of them.",
  ["src/dom/writing.c:flo_html_printHTML", "src/dom/appendix.c:flo_html_appendTextNode", "src/dom/modification.c:flo_html_setPropertyValue", "src/parser.c:flo_html_parse"])

p("Printed documents can be inserted into documents; structures, texts and HTML are interchangeable",
  "If a document's strings need no escaping and its elements are printed in forms that fit them (C115), then its printed text, appended, prepended or put in place of a node of any document (itself included), arrives there as a copy: the same elements with the same attributes and text in the same nesting, as new nodes. A node handed over as a structure does the same as its HTML, and a text the same as that text taken as HTML: the calls lead to the same page, print the same and return the same value (but for prependTextNode and replaceWithTextNode, which return the number of a merged text, C20 and C26).",
  "all pairs of reachable documents that show pages, the first of harmless strings and nested at most 256 deep, and all nodes of the second; all structures and texts of harmless strings, all editing calls that take them, with room for identifiers",
  "The statement relates the printer of one document and the fragment reader on another, or two different functions on the same document, for all documents, places and strings.",
  ["src/dom/writing.c:flo_html_printHTML", "src/dom/appendix.c:flo_html_appendHTMLFromString", "src/dom/appendix.c:flo_html_appendDocumentNode", "src/dom/prependix.c:flo_html_prependHTMLFromString", "src/dom/replacement.c:flo_html_replaceWithHTMLFromString", "src/parser.c:flo_html_parseExtra"])

p("Concatenation",
  "A well-formed piece of source means the same whatever follows it, and does not change what follows: if it is put in front of any other input, well formed or not, the document is the trees of the piece followed by the document of the other input; if the other input is refused, so is the whole (a piece that ends in a text must be followed by a tag, otherwise the text goes on). Likewise for the HTML strings of the editing functions, and appending both together is appending the one and then the other: same page, same text when printed, same value as the first call if that adds a child.",
  "all well-formed pieces of source nested within the limits, all strings behind them, all documents that show a page and nodes of it, with room for identifiers",
  "A parser with positions, a stack and look-ahead can let any later byte influence what was read before; the statement is about all pairs of strings.",
  ["src/parser.c:flo_html_parse", "src/parser.c:flo_html_parseExtra", "src/dom/appendix.c:flo_html_appendHTMLFromString", "src/dom/dom.c:flo_html_createDom"])

p("Row pointers and the last sibling",
  "flo_html_getFirstChildNode, getParentNode, getNextNode, getPreviousNode and getLastNextNode return a pointer into a link table through which callers read and write. In every document reached by parsing and editing, the pointer is the table row that holds exactly the link asked for, and NULL exactly when there is no such link: the first child of a node, the parent of a child, the next and the previous sibling, and for getLastNextNode the row from the last but one to the last sibling. flo_html_getLastNext returns the last child of the node's parent and always comes back.",
  "all reachable documents, all nodes and all of their children",
  "Which rows exist, and in which order, depends on the whole history of edits; a stale or foreign row shows only when it is written through.",
  ["src/dom/traversal.c:flo_html_getLastNextNode", "src/dom/traversal.c:flo_html_getLastNext", "src/dom/traversal.c:flo_html_getNextNode", "src/dom/traversal.c:flo_html_getParentNode", "src/dom/traversal.c:flo_html_getFirstChildNode"])

p("A document that stays small can be edited for ever",
  "Removing nodes makes room for new ones: a session that keeps adding and removing, so that the document never gets large, never fails for lack of identifiers. (Violated: identifiers are never given back. An empty document to which one element is added and removed again, over and over, is empty after each round, and the 65534th round takes the failure exit; in any session each call that is handed an element or a text spends one identifier for good, also when the text is merged into another.)",
  "all reachable documents, all sessions of editing calls of any length",
  "The failure comes after 65533 rounds of any calls in any order.",
  ["src/dom/deletion.c:flo_html_removeNode", "src/dom/dom-util.c:flo_html_createNode", "src/dom/appendix.c:flo_html_appendDocumentNode"])

p("Equality is transitive, and equal documents compare alike with others",
  "If flo_html_equals reports two documents equal, then comparing either of them with any third document gives the same status and names the same node of the third, or takes the failure handler for both. In particular, if a equals b and b equals c, then a equals c, and that comparison does not take the failure handler.",
  "every triple of reachable DOMs",
  "The statement is about three arbitrary documents with arbitrary histories; the comparison works with fixed-size hash sets whose overflow depends on the attributes of the elements.",
  ["src/dom/comparison.c:flo_html_equals"])

p("The attribute functions satisfy the laws of a key-value list",
  "For every node of every document: setting an attribute's value twice has the effect of the last call alone, and setting then removing has the effect of removing alone. Two calls for the same node about different keys, about different boolean attributes, or one about a key and one about a boolean attribute can be exchanged (except two additions to the same list, whose order is printed). On an element without the key, add-then-remove leaves no trace, add-then-set is add with the second value, and set and remove alone change nothing; setting the value an attribute already has changes nothing; a boolean attribute not present that is added and removed leaves no trace. In each case the documents show the same page and print the same text.",
  "every reachable DOM with room for two more identifiers, every node of it, every key, value and boolean attribute",
  "The laws are equalities between the results of different call sequences for all keys and values and on all documents; the attributes are kept in flat arrays shared by all nodes and removal moves the entries behind.",
  ["src/dom/modification.c:flo_html_setPropertyValue", "src/dom/modification.c:flo_html_addPropertyToNode", "src/dom/deletion.c:flo_html_removeProperty", "src/dom/deletion.c:flo_html_removeBooleanProperty"])

p("The printed text determines the document",
  "Two documents, whatever their histories, that print the same text have the same elements with the same attributes in the same nesting and the same text (texts standing next to each other count as one), every element name on them is printed in the same form, and flo_html_equals reports them equal if neither has neighbouring texts. (The code satisfies this for documents of harmless strings only: nothing is escaped.)",
  "every pair of reachable documents of any size that print the same text",
  "The statement is about all pairs of documents and all their histories; that two different documents never print alike needs the inverse of the printer.",
  ["src/dom/writing.c:flo_html_writeHTMLToFile", "src/dom/comparison.c:flo_html_equals"])

p("Different calls for the same edit have the same effect",
  "On a node without children, the append functions and the prepend functions do the same. Setting the text content of a node is the same as removing its children and then appending (or prepending) the text. Removing the children twice is the same as once, and setting the text twice gives the same document as setting the last text. Replacing the last child of a node by a text, an element or an HTML string is the same as removing it and appending to the parent; replacing the first child is the same as removing it and prepending. Appending a text to a node whose last child is a text is the same as adding the text at the end of that child; prepending one to a node whose first child is a text is the same as adding it at the beginning of that child (identifiers of nodes created later may differ). The same means: both sequences succeed and lead to documents with the same nodes (identifiers included, except for setting the text twice), children, names, attributes and texts, and the same printed text.",
  "every reachable DOM with room, every node of it of the right kind, every text, element description and HTML string that stands for something (for replacement by HTML: outside C27's two cases)",
  "These are equalities between results of different functions with separate link handling (appendix.c, prependix.c, replacement.c, deletion.c), for all documents and all arguments, including the merging with neighbouring texts.",
  ["src/dom/appendix.c:flo_html_appendDocumentNode", "src/dom/prependix.c:flo_html_prependDocumentNode", "src/dom/replacement.c:flo_html_replaceWithDocumentNode", "src/dom/deletion.c:flo_html_removeChildren", "src/dom/modification.c:flo_html_setTextContent"])

p("The laws of selectors",
  "Between the answers to different queries on the same document: blanks and the order of conditions do not matter (same nodes of the document, or both refused as unknown). A selector with several conditions answers the intersection of what its parts answer. A chain answers exactly the nodes that its last selector alone answers and that the last combinator reaches from a node the shorter chain answers; so replacing a child combinator by a descendant combinator, or an adjacent by a general sibling combinator, anywhere in the query, never loses a node, and never turns an answer into a refusal.",
  "every reachable DOM, every well-formed query of at most eight conditions per selector, every answer to reads of a text's tag, every node of the document (for intersections: every node at all)",
  "The laws relate the answers of several queries, for all documents, all queries of any length and all places in them; the evaluation works on hash sets of bounded size and in an order of its own.",
  ["src/dom/query/query.c:flo_html_querySelectorAll", "src/dom/query/query-util.c:flo_html_getFilteredDescendants"])

p("A call that runs out of memory leaves what is read as it was",
  "A call leaves through the failure exit at any of the allocations it makes. Wherever that is, the program that catches the failure finds the document as it was before the call: kind, text, tag and attributes of every node, first child, next, previous and parent, the answers of the attribute functions and the text printed. Removing calls never fail. With memory enough the call does what the other properties say.",
  "every reachable DOM, every mutating call with every argument, every allocation at which the memory may run out",
  "Each call makes many allocations (a new attribute alone up to five), whether one needs memory depends on the whole history, and the state at each of these points has to be compared with the state before.",
  ["src/dom/modification.c:flo_html_addPropertyToNode", "src/dom/modification.c:flo_html_setTextContent", "src/dom/appendix.c:updateReferences", "src/dom/prependix.c:updateReferences", "src/dom/replacement.c:updateReferences", "util/src/memory/arena.c:flo_alloc"])

p("A fragment whose parse fails is not seen",
  "While the HTML of an append, prepend or replace is parsed into the document's tables, nothing of the document changes: wherever the memory runs out, when the fragment is refused for its depth, and even when it is complete but not yet attached, everything that is read of the document's nodes, and the text printed, is as before.",
  "every reachable DOM, every string, every allocation at which the memory may run out, every answer to reads outside the nesting stack",
  "A parse makes arbitrarily many allocations and writes to all tables of the document; every one of the intermediate states must be unseen.",
  ["src/parser.c:flo_html_parseExtra", "src/parser.c:flo_html_parse", "src/parser.c:parseDocumentNode", "src/parser.c:parseTextNode"])

p("After a failure the call can be made again",
  "A program that catches the failure, frees memory elsewhere and calls again gets what the first call would have given; and other calls are not disturbed by the failed one.",
  "every reachable DOM, every call that changes attributes, texts or tags, every allocation at which the memory may run out, every continuation",
  "The state after a failure is none that successful calls reach, and the damage shows only in the answers of later calls.",
  ["src/dom/modification.c:getCreatedPropIDFromString", "src/dom/util/string-auto-uint16-map.c:flo_trie_insertStringAutoUint16Map", "src/dom/modification.c:flo_html_setTagOnDocumentNode"])

p("An array into which a push failed can be used again",
  "A push onto a dynamic array, or an append to a byte buffer, that leaves through the failure exit leaves the elements, the arena and the memory as they were, and the next push or append with memory enough works as if nothing had failed.",
  "every element size and alignment, every array, every arena, every arena used afterwards",
  "Whether the allocation fails depends on the whole history of the arena; the damage appears only at the next push, wherever in the program that is.",
  ["util/include/flo/util/array.h:flo_grow", "util/include/flo/util/array.h:FLO_PUSH_2", "util/include/flo/util/raw-data.h:flo_addRawData"])

p("After a failing edit the document can be printed",
  "Wherever an edit leaves through the failure exit because memory ran out, printing the document it leaves terminates, reads only inside the tables and returns a text.",
  "every document that can be reached by parsing, duplicating and editing, every allowed edit with every argument (including HTML fragments), every point at which its memory may run out",
  "An edit takes memory at many places, in loops over fragments of any size; between two of them the link tables are in a state that no completed call ever leaves.",
  ["src/dom/appendix.c:updateReferences", "src/dom/prependix.c:updateReferences", "src/dom/replacement.c:updateReferences", "src/dom/replacement.c:flo_html_replaceWithHTMLFromString", "src/dom/writing.c:flo_html_printHTML"])

p("A failing edit changes one list of children only",
  "Wherever appending to, prepending to or replacing a child of a node p by a fragment fails because memory ran out, every other node that was there has the children it had, every node has its kind, tag, attributes and text (a text may be longer at either end), and the children of p are: after appending, those it had and possibly new ones behind them; after prepending, those it had with new ones possibly in front, or new ones alone; after replacing by a fragment, those it had, or those before the replaced node and then new ones. After failing to set a text, the nodes below are removed, the node has no child or the new text, and nothing outside the subtree has changed. Where one of the other calls (changing attributes, adding to a text, changing a tag, replacing a node by an element or a text) fails, no list of children has changed.",
  "every document that can be reached by parsing, duplicating and editing, every allowed call of these functions with every argument, every point at which its memory may run out",
  "The failing point may lie inside the loops that copy links of a fragment of any size; what is lost depends on the order in which the link tables are written.",
  ["src/dom/appendix.c:updateReferences", "src/dom/prependix.c:updateReferences", "src/dom/replacement.c:updateReferences", "src/dom/modification.c:flo_html_setTextContent", "src/dom/replacement.c:flo_html_replaceWithHTMLFromString"])

p("A failing call does not change the answers to queries",
  "After a call that has failed because memory ran out, every query that was answered before is answered with the same nodes.",
  "every document, every mutating call that fails with every argument at every point, every query text",
  "A query looks at every stored node and at the tables of names, and a failing call leaves nodes and names behind that belong to nothing; which ones depends on the point of failure.",
  ["src/dom/query/query.c:flo_html_querySelectorAll", "src/dom/query/query-util.c:flo_html_filterNode", "src/dom/appendix.c:flo_html_appendHTMLFromStringWithQuery", "src/dom/modification.c:flo_html_setTagOnDocumentNode"])

p("Edits of different nodes can be made in either order",
  "Putting a text, an element or an HTML string at either end of the children of one node, and doing so at another node (which may be below the first); changing the attributes or the tag of an element and putting something among the children of any node; changing the attributes, text or tag of one node and of another; removing a node and removing another, changing the attributes, text or tag of one, or putting something among the children of one that is not its parent, if both calls are in order either way: in either order both calls succeed, and the trees, the number of nodes and - if no new tag name is used in two forms - the printed text are the same.  If a new name is used in two forms, the first use decides how both elements print.",
  "all documents that can be reached, all pairs of nodes, all texts, elements and HTML strings, all attribute names and values, all tags",
  "All pairs of calls in all documents: node numbers, merged texts and the global tables of names depend on the order.",
  ["src/dom/appendix.c:flo_html_appendHTMLFromString", "src/dom/prependix.c:flo_html_prependHTMLFromString", "src/dom/modification.c:flo_html_setTagOnDocumentNode"])

p("An edit of a node does not change the answers to queries that do not mention what is edited",
  "A call that changes an attribute, the text or the tag of a node leaves the answer to every query as it was, as far as the nodes of the document are concerned, if no condition of the query is on that key or boolean attribute and no selector of it names the old or the new tag; a query that was answered is still answered.",
  "all documents that can be reached with attribute calls on elements, all such calls, all well-formed queries",
  "A query looks at global tables of names, attributes and children; an edit adds rows and names there for any node.",
  ["src/dom/query/query.c:flo_html_querySelectorAll", "src/dom/modification.c:flo_html_addPropertyToNode", "src/dom/modification.c:flo_html_setTagOnDocumentNode"])

p("A change of attributes, of a text or of a tag leaves navigation as it was, and the text contents unless it changes a text",
  "Adding, changing or removing an attribute, adding text to a text node and setting the tag of an element leave first child, parent, next and previous of every node of the document as they were, and the walk over the document gives the same nodes in the same order. Attribute calls and setting a tag leave the text content of every node as it was, too.",
  "all documents that can be reached, all such calls with room for them, all nodes of the document",
  "Names, attributes, texts and children are in global tables that grow and are shifted; a wrong row would show anywhere.",
  ["src/dom/modification.c:flo_html_addPropertyToNode", "src/dom/modification.c:flo_html_setTagOnDocumentNode", "src/dom/modification.c:flo_html_addTextToTextNode", "src/dom/traversal.c:flo_html_traverseDom", "src/dom/traversal.c:flo_html_getNext"])

here = os.path.dirname(os.path.abspath(__file__))
if __name__ == "__main__":
    with open(os.path.join(here, "..", "properties.jsonl"), "w") as f:
        for x in P: f.write(json.dumps(x) + "\n")
    for x in P: print(x["id"], x["title"])
