{"id": "C01", "title": "Parsing terminates", "statement": "flo_html_createDom returns (a DOM, NULL, or a jump to the out-of-memory handler) on every byte string; no input makes any of its scanning loops run forever.", "quantifier": "every byte string of every length", "why_tests_cant": "Tests try finitely many inputs; a non-terminating scan can hide behind any malformed tail.", "anchors": ["src/parser.c:flo_html_parse", "src/parser.c:parseTextNode", "src/parser.c:parseDocumentNode", "src/parser.c:parseProp", "include/flo/html-parser/util/parse.h"]}
{"id": "C02", "title": "Parsing never reads outside the input", "statement": "While parsing any byte string, every character or substring the parser takes lies inside the input and every length it computes is non-negative.", "quantifier": "every byte string of every length", "why_tests_cant": "An out-of-bounds read usually goes unnoticed in a test, and only specific malformed tails trigger it.", "anchors": ["src/parser.c:parseProp", "src/parser.c:isCommentTag", "src/parser.c:isEndDocumentTag", "src/parser.c:parseTextNode", "include/flo/html-parser/util/parse.h:FLO_PARSE_SKIP_COMMENT"]}
{"id": "C03", "title": "NULL exactly on excessive nesting", "statement": "flo_html_createDom returns NULL only if at some point an element with an end tag is opened while 255 such elements are already open below the root; the fixed-size nesting stack is never written outside its 256 slots.", "quantifier": "every byte string of every length and nesting depth", "why_tests_cant": "The bound must hold for every interleaving of start, end, void and rogue tags.", "anchors": ["src/parser.c:flo_html_parse", "include/flo/html-parser/parser.h:FLO_HTML_MAX_NODE_DEPTH"]}
{"id": "C04", "title": "A parsed document is a tree", "statement": "After a successful parse, every node other than the error node and the root has exactly one parent, appears exactly once in that parent's child list, and is reachable from the root by first-child/next-sibling steps; the lists are finite and acyclic.", "quantifier": "every byte string for which parsing succeeds", "why_tests_cant": "Well-formedness is a global invariant of the tables built over an unbounded token sequence.", "anchors": ["src/parser.c:updateReferences", "src/parser.c:flo_html_parse", "src/dom/traversal.c"]}
{"id": "C05", "title": "Node identifiers are document order", "statement": "After a successful parse of an input, iterating flo_html_traverseDom from the root visits exactly the nodes 2,3,...,n-1, in that order.", "quantifier": "every byte string for which parsing succeeds", "why_tests_cant": "Order must hold for all documents, not samples.", "anchors": ["src/parser.c:flo_html_parse", "src/dom/traversal.c:flo_html_traverseDom"]}
{"id": "C06", "title": "Parsed text is whitespace-normalised", "statement": "Every text node made by the parser contains no '<', tab, newline or carriage return, never two consecutive spaces and no trailing space.", "quantifier": "every byte string for which parsing succeeds and every text node of the result", "why_tests_cant": "Chunking, comments and end-of-input interact in unboundedly many ways.", "anchors": ["src/parser.c:parseTextNode", "src/parser.c:textNodeContinue"]}
{"id": "C07", "title": "Script and style content is raw text", "statement": "The content of a script or style element is kept as one text node, whatever characters it contains, up to the matching end tag.", "quantifier": "every script or style content without its own end tag", "why_tests_cant": "Must hold for all contents; the tests use contents without '<'.", "anchors": ["src/parser.c:parseTextNode", "src/parser.c:isCloseTag"]}
{"id": "C08", "title": "Void and declaration elements get no children", "statement": "In a parsed document an element whose tag is a void element, or that starts with '!', never has a child node.", "quantifier": "every byte string for which parsing succeeds and every such node", "why_tests_cant": "Must hold whatever follows the tag.", "anchors": ["src/parser.c:isVoidElement", "src/parser.c:parseDocumentNode", "src/parser.c:flo_html_parse"]}
{"id": "C09", "title": "Parsing inverts serialisation on clean documents", "statement": "For every finite tree of elements, attributes and normalised texts with well-formed names and depth below the limit, parsing its serialisation yields a DOM that represents exactly that tree.", "quantifier": "every clean document tree of every size", "why_tests_cant": "Round-trip for all trees; tests cover a handful.", "anchors": ["src/parser.c:flo_html_parse", "src/dom/writing.c:printNode"]}
{"id": "C10", "title": "Comments and whitespace create no nodes", "statement": "A document consisting only of whitespace and terminated comments yields a DOM with no nodes but the error node and the root.", "quantifier": "every sequence of whitespace and comments", "why_tests_cant": "Unboundedly many comment bodies.", "anchors": ["include/flo/html-parser/util/parse.h:FLO_PARSE_SKIP_COMMENT", "src/parser.c:flo_html_parse"]}
{"id": "C11", "title": "Names are interned consistently", "statement": "Over any sequence of insertions into a name table, equal strings always get the same identifier, different strings different ones, identifiers are 1,2,3,... in first-seen order, and the registry entry at an identifier is the inserted string.", "quantifier": "every sequence of inserted strings", "why_tests_cant": "Depends on the hash values of all strings and on the whole insertion history.", "anchors": ["src/dom/util/string-auto-uint16-map.c", "src/dom/modification.c:getCreatedPropIDFromString", "src/dom/modification.c:flo_html_setTagOnDocumentNode"]}
{"id": "C12", "title": "Identifier space exhaustion is reported, not wrapped", "statement": "When a table already holds 65535 names, interning a new one, or creating a node beyond identifier 65534, jumps to the failure handler and never reuses an identifier.", "quantifier": "every insertion history of every length", "why_tests_cant": "Needs histories of more than 65535 distinct names.", "anchors": ["src/dom/util/string-auto-uint16-map.c:flo_trie_insertStringAutoUint16Map", "src/dom/dom-util.c:flo_html_createNode"]}
{"id": "C13", "title": "Name-table lookups stay inside the node", "statement": "Every lookup or insertion in a name table only follows one of the four child links of the trie nodes it visits.", "quantifier": "every string and every table", "why_tests_cant": "The subscript is derived from a 64-bit hash of arbitrary input.", "anchors": ["src/dom/util/string-auto-uint16-map.c:flo_trie_insertStringAutoUint16Map", "util/include/flo/util/hash/hashes.h:flo_hashStringDjb2"]}
{"id": "C14", "title": "Navigation functions agree with one tree", "statement": "In every DOM reachable by parsing and then editing, there is one tree such that getFirstChild, getNext, getParent and getPrevious return exactly its first child, next sibling, parent and previous sibling (0 when there is none).", "quantifier": "every input and every finite sequence of create/append/prepend/replace/remove operations", "why_tests_cant": "The invariant ranges over all operation histories.", "anchors": ["src/dom/traversal.c", "src/dom/appendix.c", "src/dom/prependix.c", "src/dom/replacement.c", "src/dom/deletion.c"]}
{"id": "C15", "title": "traverseDom is a preorder walk", "statement": "In every reachable DOM, iterating flo_html_traverseDom from the root visits every node of the tree exactly once, in preorder, and then reports the end.", "quantifier": "every reachable DOM", "why_tests_cant": "Needs induction over trees of arbitrary shape.", "anchors": ["src/dom/traversal.c:flo_html_traverseDom"]}
{"id": "C16", "title": "traverseNode stays inside the subtree", "statement": "Iterating flo_html_traverseNode from a start node visits exactly the proper descendants of that node, in preorder; getTextContent collects exactly the texts below the node.", "quantifier": "every reachable DOM and every start node", "why_tests_cant": "All tree shapes, in particular childless start nodes.", "anchors": ["src/dom/traversal.c:flo_html_traverseNode", "src/dom/reading/reading.c:flo_html_getTextContent"]}
{"id": "C17", "title": "appendDocumentNode appends exactly one last child", "statement": "After appendDocumentNode(parent, node) succeeds, the returned node is new, is the last child of parent, carries the given tag and attributes, and the rest of the tree is unchanged.", "quantifier": "every reachable DOM, live parent and node description", "why_tests_cant": "Frame conditions range over all other nodes.", "anchors": ["src/dom/appendix.c:flo_html_appendDocumentNode", "src/dom/appendix.c:updateReferences"]}
{"id": "C18", "title": "prependDocumentNode prepends exactly one first child", "statement": "After prependDocumentNode(parent, node) succeeds, the returned node is new, is the first child of parent, and the rest of the tree is unchanged.", "quantifier": "every reachable DOM, live parent and node description", "why_tests_cant": "Frame conditions range over all other nodes.", "anchors": ["src/dom/prependix.c:flo_html_prependDocumentNode", "src/dom/prependix.c:updateReferences"]}
{"id": "C19", "title": "Adjacent text is merged on append and prepend", "statement": "Appending (prepending) text next to an existing last (first) text child extends that child with one separating space and adds no node; otherwise a new text node becomes the last (first) child.", "quantifier": "every reachable DOM, live parent and text", "why_tests_cant": "All child lists and texts.", "anchors": ["src/dom/appendix.c:flo_html_appendTextNode", "src/dom/prependix.c:flo_html_prependTextNode", "src/dom/dom-util.c:flo_html_tryMerge"]}
{"id": "C20", "title": "Text operations return the node holding the text", "statement": "appendTextNode and prependTextNode return the identifier of the live node that now holds the text.", "quantifier": "every reachable DOM, live parent and text", "why_tests_cant": "Only the merge path goes wrong, and only the returned handle shows it.", "anchors": ["src/dom/appendix.c:flo_html_appendTextNode", "src/dom/prependix.c:flo_html_prependTextNode"]}
{"id": "C21", "title": "removeNode deletes exactly the subtree", "statement": "removeNode(n) terminates, marks n and all its descendants removed, takes n out of its parent's child list, and leaves every other node, child list and text unchanged.", "quantifier": "every reachable DOM and every live non-root node", "why_tests_cant": "Recursion over arbitrary subtrees plus frame conditions.", "anchors": ["src/dom/deletion.c:flo_html_removeNode"]}
{"id": "C22", "title": "removeChildren and setTextContent", "statement": "removeChildren(n) leaves n with no children and everything outside its subtree unchanged; setTextContent(n,t) leaves n with exactly one child, a text node holding t.", "quantifier": "every reachable DOM, live node and text", "why_tests_cant": "Arbitrary subtrees.", "anchors": ["src/dom/deletion.c:flo_html_removeChildren", "src/dom/modification.c:flo_html_setTextContent"]}
{"id": "C23", "title": "appendHTMLFromString appends the parsed fragment", "statement": "appendHTMLFromString(parent, html) adds the top-level nodes of the parsed fragment, in order, after the existing children of parent (merging a leading text with a trailing text child) and changes nothing else.", "quantifier": "every reachable DOM, live parent and fragment", "why_tests_cant": "All fragments and all trees.", "anchors": ["src/dom/appendix.c:flo_html_appendHTMLFromStringWithQuery", "src/dom/appendix.c:flo_html_appendHTMLFromString"]}
{"id": "C24", "title": "prependHTMLFromString prepends the parsed fragment", "statement": "prependHTMLFromString(parent, html) adds the top-level nodes of the parsed fragment, in order, before the existing children of parent and changes nothing else.", "quantifier": "every reachable DOM, live parent and fragment", "why_tests_cant": "All fragments and all trees.", "anchors": ["src/dom/prependix.c:flo_html_prependHTMLFromString"]}
{"id": "C25", "title": "replaceWithDocumentNode puts the new node in the old one's place", "statement": "replaceWithDocumentNode(old,node) puts a new node at the position of old in its parent's child list; the other children and the rest of the tree are unchanged.", "quantifier": "every reachable DOM, live non-root node and node description", "why_tests_cant": "All positions and trees.", "anchors": ["src/dom/replacement.c:flo_html_replaceWithDocumentNode", "src/dom/replacement.c:updateReferences"]}
{"id": "C26", "title": "A replaced node is gone", "statement": "After a replacement the old node and its descendants are no longer found by queries.", "quantifier": "every reachable DOM, live non-root node and query", "why_tests_cant": "All subtrees and queries.", "anchors": ["src/dom/replacement.c:updateReferences", "src/dom/query/query-util.c:flo_html_filterNode"]}
{"id": "C27", "title": "replaceWithHTMLFromString merges text safely", "statement": "replaceWithHTMLFromString(old, html) succeeds and returns a live node for every fragment, including a single text next to text siblings.", "quantifier": "every reachable DOM, live non-root node and fragment", "why_tests_cant": "Neighbour combinations of text and elements.", "anchors": ["src/dom/replacement.c:flo_html_replaceWithHTMLFromString"]}
{"id": "C28", "title": "Inserting an empty fragment changes nothing", "statement": "append-, prepend- and replaceWithHTMLFromString with a fragment that contains no nodes are safe and leave the tree unchanged (or remove the replaced node).", "quantifier": "every reachable DOM and every whitespace/comment-only fragment", "why_tests_cant": "All empty fragments.", "anchors": ["src/dom/appendix.c:flo_html_appendHTMLFromString", "src/dom/prependix.c:flo_html_prependHTMLFromString", "src/dom/replacement.c:flo_html_replaceWithHTMLFromString"]}
{"id": "C29", "title": "Attribute operations behave like a per-node store", "statement": "Over any sequence of add/set/remove attribute operations, hasProperty, hasPropKey, hasPropValue, hasBoolProp and getValue answer as a per-node list of (key,value) pairs and boolean names would, where add appends, set and remove affect the first pair with that key.", "quantifier": "every history of attribute operations on every node", "why_tests_cant": "Histories and name collisions.", "anchors": ["src/dom/modification.c", "src/dom/reading/reading.c", "src/dom/deletion.c:flo_html_removeProperty", "src/dom/reading/reading-util.c"]}
{"id": "C30", "title": "Attributes of other nodes are untouched", "statement": "An attribute operation on one node never changes what any attribute query answers about another node.", "quantifier": "every reachable DOM, every pair of different nodes, every operation", "why_tests_cant": "Quantifies over all other nodes and keys.", "anchors": ["src/dom/modification.c", "src/dom/deletion.c", "src/dom/reading/reading.c"]}
{"id": "C31", "title": "Compound selectors select exactly the matching nodes", "statement": "querySelectorAll with a compound selector (a tag or attribute conditions) returns, without duplicates, exactly the nodes satisfying every condition.", "quantifier": "every reachable DOM and every compound selector", "why_tests_cant": "All DOMs and selectors.", "anchors": ["src/dom/query/query.c:getQueryResults", "src/dom/query/query-util.c:flo_html_getNodesWithoutflo_html_Combinator", "src/dom/query/query-util.c:flo_html_filterNode"]}
{"id": "C32", "title": "Combinators follow the tree", "statement": "The child, descendant, adjacent-sibling and general-sibling combinators return exactly the nodes in that relation to a previous result that satisfy the filters.", "quantifier": "every reachable DOM, result set and filter list", "why_tests_cant": "All trees.", "anchors": ["src/dom/query/query-util.c:flo_html_getFilteredAdjacents", "src/dom/query/query-util.c:flo_html_getFilteredDescendants"]}
{"id": "C33", "title": "querySelector returns the first match", "statement": "querySelector returns the first node, in a preorder walk from the root, that is in the result set of querySelectorAll, 0 if that set is empty, and fails with the same status; only if no result is in the document (see C36) is the answer left unwritten.", "quantifier": "every reachable DOM and query", "why_tests_cant": "All DOMs and queries.", "anchors": ["src/dom/query/query.c:flo_html_querySelector"]}
{"id": "C34", "title": "Query evaluation terminates with a defined status", "statement": "querySelectorAll terminates on every query string, never reads outside the query string, and reports unknown names, too many filters and selectors without a first element as errors; blank parts select nothing.", "quantifier": "every query string and every reachable DOM", "why_tests_cant": "All byte strings as queries.", "anchors": ["src/dom/query/query.c", "include/flo/html-parser/dom/query/query-status.h"]}
{"id": "C35", "title": "Comma is union", "statement": "The results of a comma separated query are the union, without duplicates, of the results of its parts.", "quantifier": "every reachable DOM and every list of queries", "why_tests_cant": "All combinations.", "anchors": ["src/dom/query/query.c:flo_html_querySelectorAll"]}
{"id": "C36", "title": "Queries never return removed nodes", "statement": "No query returns a node that was removed from the document.", "quantifier": "every reachable DOM and query", "why_tests_cant": "All histories.", "anchors": ["src/dom/query/query-util.c:flo_html_getNodesWithoutflo_html_Combinator", "src/dom/deletion.c:flo_html_removeNode"]}
{"id": "C37", "title": "Class and id selectors compose with combinators", "statement": "A class or id selector followed by a combinator constrains the ancestor and the rest of the query constrains the result.", "quantifier": "every reachable DOM and every such query", "why_tests_cant": "All queries of that form.", "anchors": ["src/dom/query/query.c:parseToken", "src/dom/query/query.c:getQueryResults"]}
{"id": "C38", "title": "Edits addressed by a query without match are refused", "statement": "An append/prepend/replace addressed by a query that matches nothing reports failure and leaves the DOM unchanged.", "quantifier": "every reachable DOM and non-matching query", "why_tests_cant": "All queries.", "anchors": ["src/dom/appendix.c", "src/dom/prependix.c", "src/dom/replacement.c"]}
{"id": "C39", "title": "Equality is reflexive and a duplicate is equal", "statement": "flo_html_equals of a DOM with itself, and of a DOM with its duplicate, reports equality, unless an element has more than 64 attributes of one kind, in which case the failure handler may be taken.", "quantifier": "every reachable DOM (within the comparison's set capacity)", "why_tests_cant": "All DOMs.", "anchors": ["src/dom/comparison.c:flo_html_equals", "src/dom/dom.c:flo_html_duplicateDom"]}
{"id": "C40", "title": "Equality is symmetric", "statement": "flo_html_equals(a,b) reports equality iff flo_html_equals(b,a) does.", "quantifier": "every pair of reachable DOMs", "why_tests_cant": "All pairs.", "anchors": ["src/dom/comparison.c"]}
{"id": "C41", "title": "Equality is sound", "statement": "If flo_html_equals(a,b) reports equality, the two documents have the same shape, node types, tags, texts and attributes.", "quantifier": "every pair of reachable DOMs", "why_tests_cant": "All pairs of trees.", "anchors": ["src/dom/comparison.c:compareNode", "src/dom/comparison.c:compareProps", "src/dom/comparison.c:compareTags"]}
{"id": "C42", "title": "A duplicate is independent", "statement": "Operations on a duplicate never change what is observed through the original, and conversely.", "quantifier": "every reachable DOM and operation sequence on the copy", "why_tests_cant": "Aliasing shows up only for specific array capacities.", "anchors": ["src/dom/dom.c:flo_html_duplicateDom", "util/include/flo/util/array.h:FLO_COPY_DYNAMIC_ARRAY", "util/include/flo/util/array.h:FLO_PUSH"]}
{"id": "C43", "title": "Buffered output loses and reorders nothing", "statement": "For every buffer capacity, every sequence of appended strings and flushes and every pattern of partial writes, the bytes delivered to the file descriptor followed by the bytes still buffered are the concatenation of the appended strings, as long as no write reports an error.", "quantifier": "every buffer size, append sequence and partial-write schedule", "why_tests_cant": "All chunkings and short writes.", "anchors": ["util/src/log.c:flo_appendToBuffer", "util/src/log.c:flo_flushBuffer"]}
{"id": "C44", "title": "Integers print as their decimal representation", "statement": "Appending an unsigned or signed 64-bit integer writes exactly its canonical decimal representation.", "quantifier": "all 2^64 values", "why_tests_cant": "2^64 values.", "anchors": ["util/src/log.c"]}
{"id": "C45", "title": "Arena allocations are aligned, in range and disjoint", "statement": "Every block returned by the arena is aligned as requested, has all its bytes inside the arena and shares none with a block returned before; if it does not fit the failure handler is taken (or NULL returned, if that was asked for).", "quantifier": "every sequence of allocation requests (sizes, alignments, counts)", "why_tests_cant": "All histories.", "anchors": ["util/src/memory/arena.c:flo_alloc"]}
{"id": "C46", "title": "Dynamic arrays keep their contents", "statement": "Pushing onto a dynamic array keeps all earlier elements in order and stores the new one inside the allocated capacity.", "quantifier": "every push sequence on arrays grown from empty", "why_tests_cant": "All lengths and interleavings with other allocations.", "anchors": ["util/include/flo/util/array.h:flo_grow", "util/include/flo/util/array.h:FLO_PUSH"]}
{"id": "C47", "title": "Growing byte buffers keep their contents", "statement": "A byte buffer built by successive appends contains exactly the concatenation of the appended strings.", "quantifier": "every append sequence", "why_tests_cant": "All sizes.", "anchors": ["util/include/flo/util/raw-data.h:flo_addRawData"]}
{"id": "C48", "title": "The growing 16-bit set is a set", "statement": "Over any sequence of insertions of non-zero values the query-result set contains exactly the inserted values, its length is their number, and every insertion terminates, whatever the hash function does.", "quantifier": "every insertion sequence", "why_tests_cant": "All probing collisions and growth points.", "anchors": ["src/dom/query/msi-uint16.c", "util/src/hash/msi/common.c", "util/src/hash/msi/uint16-set.c"]}
{"id": "C49", "title": "The fixed-size string set is a set or aborts", "statement": "Over any sequence of insertions the string set contains exactly the inserted non-empty strings, as long as fewer than half of its slots are used; beyond that it takes the failure handler.", "quantifier": "every insertion sequence", "why_tests_cant": "All collisions.", "anchors": ["util/src/hash/msi/string-set.c", "util/src/hash/msi/common.c"]}
{"id": "C50", "title": "The hash tries are sets and maps", "statement": "The utility hash tries contain exactly the inserted elements, and iterating one yields each element exactly once.", "quantifier": "every insertion sequence", "why_tests_cant": "All hash collisions, including full 64-bit ones.", "anchors": ["util/src/hash/trie", "util/include/flo/util/hash/trie/common-iterator.h"]}
{"id": "C51", "title": "The pool allocator hands out disjoint live chunks", "statement": "Over any alloc/free sequence every chunk handed out is inside the pool, aligned to the chunk size and different from all chunks still in use.", "quantifier": "every alloc/free history with valid frees", "why_tests_cant": "All histories.", "anchors": ["util/src/memory/pool-allocator.c"]}
{"id": "C52", "title": "Directory creation for output paths", "statement": "flo_createPath creates every directory prefix of the given file path, for relative and absolute paths.", "quantifier": "every path", "why_tests_cant": "All paths.", "anchors": ["util/src/file/path.c:flo_createPath"]}
{"id": "C53", "title": "String helpers match their definitions", "statement": "String equality, splitting, first and last occurrence and hashing behave as their list definitions for all strings.", "quantifier": "every string", "why_tests_cant": "All strings.", "anchors": ["util/include/flo/util/text/string.h", "util/include/flo/util/hash/hashes.h"]}
{"id": "C54", "title": "Printing reproduces the element structure", "statement": "Printing a DOM emits for every node of the tree its start tag, attributes, content and (if the element was written as paired) end tag, in document order.", "quantifier": "every reachable DOM", "why_tests_cant": "All trees and tag histories.", "anchors": ["src/dom/writing.c:printNode"]}
{"id": "C55", "title": "Printing then parsing is stable", "statement": "Parsing the printed form of a parsed document gives an equal document.", "quantifier": "every parsed document", "why_tests_cant": "All documents.", "anchors": ["src/dom/writing.c", "src/parser.c"]}
{"id": "C56", "title": "Traversal counters never overflow", "statement": "The 16-bit loop counters used in the traversal functions reach the end of their tables in every reachable DOM.", "quantifier": "every reachable DOM", "why_tests_cant": "Needs tables of more than 65535 entries.", "anchors": ["src/dom/traversal.c"]}
{"id": "C57", "title": "Pointers print as hexadecimal", "statement": "Appending a pointer writes all hexadecimal digits of its value.", "quantifier": "all 2^64 values", "why_tests_cant": "2^64 values.", "anchors": ["util/src/log.c:flo_appendPtr"]}
{"id": "C58", "title": "The buddy allocator keeps blocks disjoint", "statement": "Over any alloc/free sequence the buddy allocator hands out aligned blocks inside the region, disjoint from those in use.", "quantifier": "every alloc/free history", "why_tests_cant": "All histories.", "anchors": ["util/src/memory/buddy-allocator.c"]}
{"id": "C59", "title": "Identifiers last for documents below 64 KiB", "statement": "Parsing a document of at most 65533 bytes never fails for lack of node or name identifiers; parsing a fragment into a DOM with as many free identifiers as the fragment has bytes does not either.", "quantifier": "every byte string within the size bound; every DOM with room", "why_tests_cant": "The counters depend on how many nodes and distinct names any input produces.", "anchors": ["src/dom/dom-util.c", "src/parser.c:flo_html_createNode", "src/dom/util/string-auto-uint16-map.c"]}
{"id": "C60", "title": "Write errors neither corrupt memory nor duplicate output", "statement": "After a failing write the writer stays inside its buffer, loses nothing and delivers nothing twice.", "quantifier": "every append sequence, capacity and pattern of short writes and errors", "why_tests_cant": "All positions of the failing write.", "anchors": ["util/src/log.c:flo_flushBuffer", "util/src/log.c:flo_appendToBuffer"]}
{"id": "C61", "title": "Small integers print as decimals", "statement": "Logging an int or short value through the generic logging macro writes its decimal representation.", "quantifier": "all 2^32 values", "why_tests_cant": "All values, including negative ones.", "anchors": ["util/include/flo/util/log.h:FLO_LOG_DATA_COMMON"]}
{"id": "C62", "title": "Doubles print six decimals", "statement": "Behind the decimal point of a printed double there are always exactly six digits, those of the number of millionths.", "quantifier": "all fractions below one million millionths", "why_tests_cant": "10^6 values; the zero padding depends on the number of digits.", "anchors": ["util/src/log.c:flo_appendDouble"]}
{"id": "C63", "title": "A removed node is detached", "statement": "After flo_html_removeNode or flo_html_removeChildren, no removed node has a parent, a first child, a next or a previous sibling.", "quantifier": "every reachable DOM, every node of it, every node of the removed subtree", "why_tests_cant": "Needs an invariant relating the redundant link tables over all edit histories.", "anchors": ["src/dom/deletion.c:flo_html_removeNode", "src/dom/deletion.c:flo_html_removeChildren", "src/dom/traversal.c"]}
{"id": "C64", "title": "Resetting a pool frees every chunk once", "statement": "After a pool is reset all its chunks are available again and each of them is handed out once before any is handed out again.", "quantifier": "every pool and allocation history before the reset", "why_tests_cant": "Depends on which chunks were free when the pool was reset.", "anchors": ["util/src/memory/pool-allocator.c:flo_freePool"]}
{"id": "C65", "title": "The buddy allocator refuses what does not fit", "statement": "A request for more bytes than the managed memory has is refused: the failure handler is taken or NULL returned.", "quantifier": "every history and every request (size, count)", "why_tests_cant": "The product size * count ranges over all pairs of 64-bit numbers.", "anchors": ["util/src/memory/buddy-allocator.c:flo_buddyAlloc"]}
{"id": "C66", "title": "String copying stays in bounds", "statement": "Appending or copying strings writes only inside the destination and leaves exactly the source bytes there.", "quantifier": "every pair of strings and destination length", "why_tests_cant": "Every combination of lengths, including equal ones.", "anchors": ["util/include/flo/util/text/string.h:FLO_STRING_APPEND", "util/include/flo/util/text/string.h:stringCopy"]}
{"id": "C67", "title": "Map insertion returns the value of the key", "statement": "Inserting into a trie map returns the value now stored under the key: the given one for a new key, the old one for a present key.", "quantifier": "every insertion history and key", "why_tests_cant": "Depends on the whole insertion history and on hash collisions.", "anchors": ["util/include/flo/util/hash/trie/string-uint16-map.h", "util/src/hash/trie/string-uint16-map.c"]}
{"id": "C68", "title": "Insertions into the 16-bit set look at few nodes", "statement": "An insertion into the trie set of 16-bit numbers looks at no more than nine nodes, whatever was inserted before.", "quantifier": "every insertion history", "why_tests_cant": "The longest path depends on the collision structure of the hash over all 65536 keys.", "anchors": ["util/src/hash/trie/uint16-set.c", "util/include/flo/util/hash/hashes.h"]}
{"id": "C69", "title": "Reading a file gives its bytes", "statement": "Reading a file returns FILE_SUCCESS with exactly the bytes of the file in the arena, or the status of what failed; memory outside the free part of the arena is never touched.", "quantifier": "every file (end position and deliverable bytes) and every arena", "why_tests_cant": "Ranges over all files, arenas and behaviours of the file system.", "anchors": ["util/src/file/read.c:flo_readFile"]}
{"id": "C70", "title": "File operations equal string operations", "statement": "Parsing or inserting a file equals parsing or inserting its contents as a string; if the file cannot be read, NULL or the error node is returned and the DOM is unchanged.", "quantifier": "every file, selector and DOM", "why_tests_cant": "All file contents and DOMs.", "anchors": ["src/dom/dom.c:flo_html_createDomFromFile", "src/dom/appendix.c:flo_html_appendHTMLFromFileWithQuery", "src/dom/prependix.c:flo_html_prependHTMLFromFileWithQuery", "src/dom/replacement.c:flo_html_replaceWithHTMLFromFileWithQuery"]}
{"id": "C71", "title": "Writing to a file writes the printed document", "statement": "When flo_html_writeHTMLToFile reports success, the file named by the path contains exactly the printed document; printing to standard output delivers it completely.", "quantifier": "every reachable DOM, path, and pattern of short writes and errors", "why_tests_cant": "Ranges over all documents and all splits of the output into writes.", "anchors": ["src/dom/writing.c:flo_html_writeHTMLToFile", "src/dom/writing.c:flo_html_printHTML"]}
{"id": "C72", "title": "Edits fail only when identifiers run out", "statement": "A mutating call whose preconditions hold returns normally whenever the DOM still has room for as many nodes and names as the call can add (one per byte of a fragment, one per attribute of an element, one for a text); a whole session of a document and edits that add up to at most 65533 never takes the failure exit, whatever the order and targets of the calls.", "quantifier": "every reachable DOM and every mutating call; every document and every finite sequence of mutating calls", "why_tests_cant": "The limit is only reached after tens of thousands of calls; below it, success must hold for every history.", "anchors": ["src/dom/dom-util.c:flo_html_createNode", "src/dom/appendix.c", "src/dom/prependix.c", "src/dom/replacement.c", "src/dom/modification.c", "src/dom/util/string-auto-uint16-map.c"]}
{"id": "C73", "title": "Free memory can be allocated again", "statement": "A buddy allocator grants every request for which a large enough free block exists; in particular, once all blocks have been freed it grants whatever a fresh allocator would grant, and a block that was just freed can be allocated again with the same size.", "quantifier": "every allocator size and every history of allocations and frees", "why_tests_cant": "Fragmentation and the merge order depend on the whole history.", "anchors": ["util/src/memory/buddy-allocator.c:flo_buddyAlloc", "util/src/memory/buddy-allocator.c:flo_findBestBuddy", "util/src/memory/buddy-allocator.c:flo_coalesceBuddies", "util/src/memory/buddy-allocator.c:flo_freeBuddy"]}
{"id": "C74", "title": "The form of a tag name is fixed at its first use", "statement": "Whether elements of a name are written with or without an end tag is recorded once per name, at the first use of the name (in document order while parsing, later by the edit that uses it first); no edit, insertion of HTML or duplication ever changes the record of a name, names the operation uses for the first time get exactly the form given there, other names none, and printing and comparison of every element follow the record.", "quantifier": "every clean source, every reachable DOM, every mutating call with any arguments (for the exact effect of an HTML insertion: every clean fragment), every tag name", "why_tests_cant": "Tests print a few documents; they cannot show that no history of edits ever flips the record of a name, nor what an inconsistent source prints.", "anchors": ["src/dom/modification.c:flo_html_setTagOnDocumentNode", "src/parser.c:flo_html_parseDocumentElement", "src/dom/writing.c:flo_html_printHTML"]}
{"id": "C75", "title": "Allocators touch only the memory they manage", "statement": "Creating, allocating from and giving back to a buddy allocator or a pool reads and writes no byte outside the memory handed to it: whatever the bytes outside are, the operation returns the same, leaves the same inside and leaves the outside as it was.", "quantifier": "every managed memory of admissible size, every history of allocations and frees, every contents of the rest of memory", "why_tests_cant": "A test sees one memory image; a read just past the end is invisible unless the neighbour bytes happen to matter.", "anchors": ["util/src/memory/buddy-allocator.c:flo_buddyAlloc", "util/src/memory/buddy-allocator.c:flo_coalesceBuddies", "util/src/memory/pool-allocator.c:flo_poolAlloc", "util/src/memory/pool-allocator.c:flo_freePoolNode"]}
{"id": "C76", "title": "Markup errors are tolerated in a fixed way", "statement": "A document with markup errors still parses, and the result is fixed: a '<' that starts no tag and an end tag that does not name the innermost open element become text without the '<'; an end tag outside of every element disappears; anything up to '>' may follow the name in an end tag; an element that is never closed contains everything up to the end of the input.", "quantifier": "every source built from well-formed pieces and these errors, of any size and nested to any depth up to 255", "why_tests_cant": "Errors can occur at every place of a document and in every combination.", "anchors": ["src/parser.c:isEndDocumentTag", "src/parser.c:flo_html_parse", "src/parser.c:parseTextNode"]}
{"id": "C77", "title": "Names are never forgotten", "statement": "An edit never removes or renumbers a tag name, attribute name or value the DOM has seen; therefore a query that is answered before an edit is answered after it, and a query refused for its form is refused for the same reason.", "quantifier": "every reachable DOM, every mutating call and every query string", "why_tests_cant": "Ranges over all histories and all query strings.", "anchors": ["src/dom/util/string-auto-uint16-map.c", "src/dom/query/query.c:flo_html_querySelectorAll", "src/dom/modification.c"]}
{"id": "C78", "title": "The status report shows the whole state", "statement": "flo_html_printDomStatus prints every tag name, attribute name and value with its identifier exactly once, every node with its kind and tag identifier, every registry entry, every attribute row and every link row, with the right totals, and has delivered all of it when it returns.", "quantifier": "every reachable DOM and every pattern of short writes", "why_tests_cant": "The tables are hash structures whose listing order and shape depend on the whole history.", "anchors": ["src/dom/writing.c:flo_html_printDomStatus", "src/dom/util/string-auto-uint16-map.c"]}
{"id": "C79", "title": "The difference report tells the difference", "statement": "Called with the nodes flo_html_equals reports, flo_html_printFirstDifference prints what differs between them (kind, text, tag, boolean attributes, attribute names, values), with the right contents of both sides.", "quantifier": "every pair of reachable DOMs, every pair of nodes and every pattern of short writes", "why_tests_cant": "All pairs of documents; the first difference may be anywhere.", "anchors": ["src/dom/comparison.c:flo_html_printFirstDifference", "src/dom/comparison.c:flo_html_equals"]}
{"id": "C80", "title": "Append functions return what they appended", "statement": "Each append function of the log outputs the text of its argument, padded to the minimal size, and returns the number of characters it output, not counting the end of line.", "quantifier": "every argument, every buffer size and contents, every sequence of calls, every pattern of short writes", "why_tests_cant": "Ranges over all 64-bit numbers, strings, sizes and buffer positions.", "anchors": ["util/src/log.c:flo_appendToBufferMinSize", "util/src/log.c:flo_appendRepeatedCharToBuffer", "util/src/log.c:flo_appendDouble", "util/src/log.c:flo_appendCStr"]}
{"id": "C81", "title": "Queries write only free memory", "statement": "A query changes no byte outside the free part of the arena it is given. flo_html_querySelectorAll either takes the arena's failure exit, or reports an error and leaves the arena's position alone, or returns an array of exactly the matching identifiers at the first suitably aligned free address, with the arena's position just behind it; the copy into place never overlaps its source. flo_html_querySelector gives the same node whatever the free memory contained.", "quantifier": "every reachable DOM, every query string, every arena and every contents of its memory", "why_tests_cant": "The sets of a query live in the arena, move when they grow and share memory with the arena they are copied to; all documents, queries, sizes and garbage contents are covered.", "anchors": ["src/dom/query/query.c:flo_html_querySelectorAll", "src/dom/query/query.c:flo_html_querySelector", "src/dom/query/msi-uint16.c:flo_msi_html_toArray", "util/src/memory/arena.c:flo_copyToArena"]}
{"id": "C82", "title": "A query succeeds in an arena of known size", "statement": "With (2n + 3) * 1310720 free bytes, n being the length of the query, a query never takes the arena's failure exit, whatever the document; with fewer than 512 free bytes every query takes it.", "quantifier": "every reachable DOM, every query string and every arena", "why_tests_cant": "Peak memory depends on how all the sets of a query grow, for every document and query.", "anchors": ["src/dom/query/query.c:flo_html_querySelectorAll", "src/dom/query/query-util.c:flo_html_getFilteredDescendants", "src/dom/query/msi-uint16.c:flo_msi_html_uint16Insert"]}
{"id": "C83", "title": "Parsing builds the DOM in the arena", "statement": "Given a source text outside the arena's free memory, flo_html_createDom either takes the arena's failure exit or returns NULL exactly where it should, or a DOM whose node, link, attribute and name tables, read byte by byte from memory, are those the source describes, and whose name maps find every name. It writes to no byte outside the free part, and later writes to memory still free do not disturb the DOM.", "quantifier": "every source text, every arena, every contents of its memory", "why_tests_cant": "The tables move while they grow and share one arena with the texts and the map nodes; an overlap or a stale pointer shows only for particular interleavings of growth.", "anchors": ["src/dom/dom.c:flo_html_createDom", "src/parser.c:flo_html_parse", "src/dom/util/string-auto-uint16-map.c:flo_trie_insertStringAutoUint16Map", "util/include/flo/util/array.h:FLO_PUSH"]}
{"id": "C84", "title": "Parsing memory is linear in the source", "statement": "flo_html_createDom takes at most 840 + 320 n bytes of the arena for a source of n bytes and never takes the failure exit for lack of memory if that many are free; with n at most 65533 and no quote at the end of the source it succeeds.", "quantifier": "every source text and every arena", "why_tests_cant": "The worst source is unknown and the amount depends on the growth of eleven arrays; all sources and sizes are covered.", "anchors": ["src/dom/dom.c:flo_html_createDom", "src/parser.c:flo_html_parse", "util/include/flo/util/raw-data.h:flo_addRawData"]}
{"id": "C85", "title": "Failing calls explain themselves on the standard error stream", "statement": "A query that is refused puts on stderr the reason, the name of the status and a closing line, after one warning per attribute condition it dropped (at most one per '['); a query without attribute conditions says something exactly if it is refused. The edits addressed by a query add a line that names the selector, the file functions a message with the reason and the file name. The messages are flushed when the call returns, and apart from them the call answers and does exactly what it does without them.", "quantifier": "every reachable DOM, query string, edit, file outcome, buffer state and splitting of the writes", "why_tests_cant": "All query strings, buffer fill levels and short writes.", "anchors": ["src/dom/query/query.c:flo_html_querySelectorAll", "src/dom/appendix.c:flo_html_appendTextNodeWithQuery", "src/dom/prependix.c:flo_html_prependTextNodeWithQuery", "src/dom/replacement.c:flo_html_replaceWithTextNodeWithQuery", "src/dom/dom.c:flo_html_createDomFromFile", "src/dom/writing.c:flo_html_writeHTMLToFile"]}
{"id": "C86", "title": "Every code has its own text", "statement": "The functions that give the text of a query status, file status, comparison status, set comparison status or node type answer for every number: each code of the enumeration has a name of its own, every other number the text for unknown codes; they never read beyond their tables.", "quantifier": "every number passed as a code", "why_tests_cant": "All integers, also those that are no codes.", "anchors": ["include/flo/html-parser/dom/query/query-status.h:flo_html_queryingStatusToString", "util/include/flo/util/file/file-status.h:flo_fileStatusToString", "src/comparison-status.c:flo_html_comparisonStatusToString", "include/flo/html-parser/node/node.h:flo_html_nodeTypeToString", "util/src/hash/hash-comparison-status.c:flo_hashComparisonStatusToString"]}
{"id": "C87", "title": "The two standard streams are independent", "statement": "After any interleaving of output operations on stdout and stderr each stream has received exactly the texts sent to it, in order, delivered or still in its buffer.", "quantifier": "every interleaving of operations, buffer states and write results without errors", "why_tests_cant": "Arbitrary histories on two shared buffers.", "anchors": ["util/src/log.c:flo_getWriteBuffer", "util/include/flo/util/log.h:FLO_LOG"]}
{"id": "C88", "title": "Editing works in the arena's memory", "statement": "After any history of creating a DOM in an arena, taking memory from the same arena for the caller's own data, and editing with strings that lie in the caller's memory, the tables in memory are those of the DOM. Each mutating function, called on memory, either takes the failure exit for lack of memory or identifiers or returns the value and makes the DOM the abstract function gives; it never changes a byte of the caller's memory, only takes memory and leaves the arena's end. An allowed call never leaves the tables or the arena, even where it goes on reading through a pointer into an array that has moved.", "quantifier": "every history, DOM, arena, placement of the caller's data, mutating function and argument", "why_tests_cant": "Arbitrary histories, interleaved allocations and memory layouts.", "anchors": ["src/dom/appendix.c:flo_html_appendHTMLFromString", "src/dom/prependix.c:flo_html_prependHTMLFromString", "src/dom/replacement.c:flo_html_replaceWithHTMLFromString", "src/dom/modification.c:flo_html_addTextToTextNode", "src/dom/deletion.c:flo_html_removeNode", "src/dom/dom-util.c:flo_html_connectOtherNodesToParent"]}
{"id": "C89", "title": "The memory an edit needs is linear in the DOM and its arguments", "statement": "For a DOM of measure m (its table entries, weighted, and the characters of its texts) and string arguments of k bytes in all, one more for each string, an edit takes at most 3 m + 1000 k + 1000 bytes of the arena and never takes the failure exit for lack of memory if that many are free; with identifiers left, an allowed edit then succeeds.", "quantifier": "every history, DOM, arena, mutating function and argument", "why_tests_cant": "The worst case depends on the growth of ten arrays and on two merges of texts; all sizes are covered.", "anchors": ["src/dom/appendix.c:flo_html_appendTextNode", "src/dom/replacement.c:flo_html_replaceWithHTMLFromString", "util/include/flo/util/array.h:flo_grow", "src/dom/modification.c:flo_html_setTagOnDocumentNode"]}
{"id": "C90", "title": "A duplicate in memory is the original", "statement": "Duplicating a DOM whose tables lie in an arena, among other DOMs and data of the program, takes the failure exit for lack of memory or gives a DOM whose tables in memory, rows, names and numbers of names are those of the original. It writes only memory that was free: the original, all other DOMs and the data of the program are unchanged. The memory it takes is at most the measure of the DOM and 80 bytes, and with so much free it succeeds.", "quantifier": "every program history with one arena, DOM and arena state", "why_tests_cant": "Arbitrary histories, sizes and memory layouts.", "anchors": ["src/dom/dom.c:flo_html_duplicateDom", "util/include/flo/util/array.h:FLO_COPY_DYNAMIC_ARRAY", "util/include/flo/util/memory/arena.h:FLO_NEW"]}
{"id": "C91", "title": "DOMs that share an arena do not disturb each other", "statement": "In any program that parses, duplicates, edits and takes memory with one arena, every DOM's tables in memory stay those of that DOM: an operation on one DOM changes no other, nor the data of the program. An edit on memory returns what it returns on the abstract DOM, or takes the failure exit.", "quantifier": "every program history with one arena, number of DOMs, operation and argument", "why_tests_cant": "Arbitrary interleavings of operations on any number of DOMs whose growing arrays lie between each other.", "anchors": ["src/dom/dom.c:flo_html_createDom", "src/dom/dom.c:flo_html_duplicateDom", "src/dom/appendix.c:flo_html_appendHTMLFromString", "src/dom/modification.c:flo_html_addTextToTextNode", "util/include/flo/util/array.h:flo_grow"]}
{"id": "C92", "title": "A duplicate can be edited like the DOM it was made from", "statement": "Any edit of a duplicate on memory gives the DOM it gives on the abstract duplicate, or takes the failure exit; the original is unchanged.", "quantifier": "every program history with one arena, duplicate, edit and argument", "why_tests_cant": "Arbitrary shapes of DOMs, also those with empty tables, and histories.", "anchors": ["src/dom/dom.c:flo_html_duplicateDom", "util/include/flo/util/array.h:FLO_COPY_DYNAMIC_ARRAY", "util/include/flo/util/array.h:flo_grow", "src/dom/appendix.c:flo_html_appendTextNode"]}
{"id": "C93", "title": "Every input means what the reference reader says", "statement": "A short reader of HTML that is defined on every byte string (it works on the bytes that are left, yields tokens, and makes trees of them; comments, stray '<', stray and mismatched end tags, unclosed elements, quotes without end and every other error included) says what createDom does: it returns a document with exactly these trees, or NULL, or reads outside the input. Inputs of up to 65533 bytes never take the failure exit. In particular the inputs that give NULL and those that read outside are known exactly, and so are the trees, the forms of names and the printed text of every other input.", "quantifier": "all byte strings", "why_tests_cant": "Any input may be malformed in any way, at any place and depth; no set of samples shows that the parser has no further behaviour.", "anchors": ["src/dom/dom.c:flo_html_createDom", "src/parser.c:flo_html_parse", "src/parser.c:parseTextNode", "src/parser.c:parseDocumentNode", "include/flo/html-parser/util/parse.h:FLO_PARSE_SKIP_COMMENT"]}
{"id": "C94", "title": "Every inserted HTML string means what the reference reader says", "statement": "appendHTMLFromString, prependHTMLFromString and replaceWithHTMLFromString insert, for every string, exactly the trees the reference reader finds in it, with texts at the borders merged with text neighbours; a string that nests too deeply is refused with 0 and changes nothing; a string without any tree and a string that ends in a quote opening an attribute behave like the shortest such string. The only dependence on memory outside of the string is the answer found for '</' outside of every element.", "quantifier": "all reachable documents, nodes, byte strings and contents of the memory outside the nesting stack", "why_tests_cant": "As C93, for every document the string is inserted into.", "anchors": ["src/dom/appendix.c:flo_html_appendHTMLFromString", "src/dom/prependix.c:flo_html_prependHTMLFromString", "src/dom/replacement.c:flo_html_replaceWithHTMLFromString", "src/parser.c:flo_html_parseExtra"]}
{"id": "C95", "title": "The editing API is a document machine", "statement": "A page is a tree of numbered nodes (texts and elements with their attributes) with one simple tree operation per editing function: set or add attributes, extend a text, rename, set the text content, remove a node or its children, append, prepend, or put new nodes (an element, a text or the trees of an HTML string) in the place of a node, texts at the borders being merged with text neighbours; new nodes get the next numbers in document order. For every input that stands for a document and every sequence of editing calls that name nodes of the page of the right kind (and are not one of the two replacements that go wrong, C27), within 65533 bytes and names in total, every call succeeds, and the DOM, as seen through the navigation and reading functions, is the page after the same operations: the same identifiers, children, texts, names and attributes; it prints as the page prints, every name in the form of its first use. A duplicate is the same page.", "quantifier": "all inputs, all sequences of editing calls of any length and all of their arguments", "why_tests_cant": "The state after a sequence of edits depends on all of them; merging and numbering interact over arbitrary histories.", "anchors": ["src/dom/dom.c:flo_html_createDom", "src/dom/appendix.c:flo_html_appendHTMLFromString", "src/dom/prependix.c:flo_html_prependTextNode", "src/dom/replacement.c:flo_html_replaceWithHTMLFromString", "src/dom/deletion.c:flo_html_removeNode", "src/dom/modification.c:flo_html_setTextContent", "src/dom/modification.c:flo_html_setTag", "src/dom/writing.c:flo_html_printHTML"]}
{"id": "C96", "title": "Edits can be undone and leave no trace", "statement": "An element, with whatever is in it, that has been appended or prepended and is then removed leaves the document as it was: the same nodes with the same identifiers, children, texts, names and attributes, and the same printed text. Whatever is done to a node that has a parent and to the nodes below it, in any number of calls, is gone when the node is removed: the document and its printed text are those that result from removing the node at once.", "quantifier": "all sessions as in C95, all elements and HTML strings, all sequences of calls below a node", "why_tests_cant": "Side effects of edits (merged texts, registered names, used identifiers, stale rows) would show only after particular histories.", "anchors": ["src/dom/deletion.c:flo_html_removeNode", "src/dom/appendix.c:flo_html_appendDocumentNode", "src/dom/appendix.c:flo_html_appendHTMLFromString", "src/dom/prependix.c:flo_html_prependHTMLFromString", "src/dom/writing.c:flo_html_printHTML"]}
{"id": "C97", "title": "Attribute edits are independent of all other edits", "statement": "An attribute call and any other editing call (other than an attribute call for the same node), in either order, lead to the same document with the same identifiers and the same printed text, if both are in order either way.", "quantifier": "all sessions as in C95, all attribute calls and all editing calls", "why_tests_cant": "All pairs of calls in all documents.", "anchors": ["src/dom/modification.c:flo_html_addPropertyToNode", "src/dom/modification.c:flo_html_setPropertyValue", "src/dom/deletion.c:flo_html_removeProperty", "src/dom/appendix.c:flo_html_appendHTMLFromString", "src/dom/replacement.c:flo_html_replaceWithHTMLFromString"]}
{"id": "C98", "title": "An edit changes the printed text only where it is made", "statement": "If an editing call is about a node or about nodes below it, and does not take the node away, then the printed text before and behind the text of that node stays as it was, and between them stands what the node now prints as; if the node is within an element that is printed without content, the printed text does not change.", "quantifier": "all sessions as in C95, all nodes and all editing calls below them", "why_tests_cant": "Names are registered globally and texts are merged with neighbours, so an edit could change text anywhere.", "anchors": ["src/dom/writing.c:flo_html_printHTML", "src/dom/modification.c:flo_html_setTag", "src/dom/replacement.c:flo_html_replaceWithTextNode", "src/dom/appendix.c:flo_html_appendTextNode"]}
{"id": "C99", "title": "Every double can be logged, and prints within a millionth", "statement": "Appending a double to the log works for every double. A finite number below 2^63 in absolute value is written as a minus sign if it is negative, a decimal integral part, a point and six digits; the number written differs from the double by less than one millionth, and below 2^20 it is the nearest multiple of a millionth (up to a thousandth of a millionth). Larger numbers and the infinities are written as inf, with their sign.", "quantifier": "all doubles, every buffer size and contents, every pattern of short writes", "why_tests_cant": "2^64 values; every operation is rounded, and an error shows only where roundings add up.", "anchors": ["util/src/log.c:flo_appendDouble"]}
{"id": "C100", "title": "Only elements have attributes", "statement": "After parsing any input and any history of editing calls in which the attribute functions name elements, the root and every text have no attributes, and the reading functions say so for every name and value. (The functions do not check: an attribute set on a text is kept there.)", "quantifier": "all inputs, all histories of editing calls (the HTML strings included) in which attribute calls name elements", "why_tests_cant": "Attributes are rows in global tables keyed by node numbers; a row with a wrong number would show only on some later read.", "anchors": ["src/dom/modification.c:flo_html_addPropertyToNode", "src/dom/modification.c:flo_html_addBooleanPropertyToNode", "src/dom/reading/reading.c:flo_html_hasPropKey", "src/dom/reading/reading.c:flo_html_getValue", "src/parser.c:parseDocumentNode"]}
{"id": "C101", "title": "A query selects what its text says, on the page the session has built", "statement": "After any input and any sequence of editing calls as in C95 (attribute calls naming elements), a well-formed query is answered with exactly those nodes of the resulting page that it selects there, each once; what it selects is given by the tags, attributes and children of the page alone. It is refused only if one of its parts selects nothing on the page. On a freshly parsed document the answer contains nothing else; after edits it can contain nodes that are no longer on the page.", "quantifier": "all inputs, all sessions as in C95, all well-formed queries, every answer to reads of a text's tag that is not a tag in use", "why_tests_cant": "Queries read the tables left behind by the whole history, not the page.", "anchors": ["src/dom/query/query.c:flo_html_querySelectorAll", "src/dom/query/query-util.c:flo_html_getNodesWithoutflo_html_Combinator", "src/dom/query/query-util.c:flo_html_getFilteredDescendants", "src/dom/dom.c:flo_html_createDom"]}
{"id": "C102", "title": "Everything that can be read describes the page", "statement": "After any input and any sequence of editing calls as in C95: first child, parent, next and previous answer as the page says, for every node of it; walking the document visits the nodes of the page in document order; walking from a node visits the part of the page at that node, and its text content is the texts below it - except for a childless node followed by a sibling, where both go on to the end of the page; and (attribute calls naming elements) the attribute readers answer as the page says, for all keys, values and names.", "quantifier": "all inputs, all sessions as in C95, all nodes of the page, all names", "why_tests_cant": "Each reader looks at other tables; agreement with one page must hold after every history.", "anchors": ["src/dom/traversal.c:flo_html_getFirstChild", "src/dom/traversal.c:flo_html_traverseDom", "src/dom/traversal.c:flo_html_traverseNode", "src/dom/reading/reading.c:flo_html_getTextContent", "src/dom/reading/reading.c:flo_html_getValue", "src/dom/reading/reading.c:flo_html_hasProperty"]}
{"id": "C103", "title": "Comparison is a statement about two pages", "statement": "Comparing any two documents, however edited (attribute calls naming elements), reports equality exactly if their pages are alike: the same shape, the same texts, and elements of the same name, form, boolean attributes, keys and values; otherwise it names the first nodes in document order at which the pages differ. Pages with the same trees and the same forms are reported equal whatever their histories and node numbers. The only other outcome is the failure handler, if an element has more than 64 attributes of one kind.", "quantifier": "all pairs of documents with any histories", "why_tests_cant": "The comparison works on interned numbers that depend on the whole history of both documents.", "anchors": ["src/dom/comparison.c:flo_html_equals", "src/dom/dom.c:flo_html_createDom"]}
{"id": "C104", "title": "What editing calls return can be read off the page", "statement": "In a session as in C95, appending (an element, a text or an HTML string) returns the first of the new children, or the child that was last if all that came was a text merged into it; prepending an element or an HTML string returns what is then the first child; replacing with an HTML string returns the first of the new children, and if all that came was a text merged away, the child before it (0 at the end). Prepending a text and replacing with an element or a text return a fresh identifier, which is not on the page if the text was merged away (C20). Setting a property returns whether the element had the key. All other calls return 0.", "quantifier": "all inputs, all sessions as in C95, every call of it", "why_tests_cant": "Whether a new text becomes a node or is merged depends on the neighbours left by the whole history.", "anchors": ["src/dom/appendix.c:flo_html_appendTextNode", "src/dom/prependix.c:flo_html_prependTextNode", "src/dom/replacement.c:flo_html_replaceWithTextNode", "src/dom/appendix.c:flo_html_appendHTMLFromString", "src/dom/modification.c:flo_html_setTag"]}
{"id": "C105", "title": "A whole session in memory is a session on the page", "statement": "A program parses a source and makes editing calls with strings outside of the arena. Either some call jumps to the failure handler because the arena is used up, or the session runs to its end: the tables in memory are those of a document that is the page the session describes and prints as it, every call has returned what the page says, no byte outside of the arena has changed, and whatever happens to the free part of the arena afterwards changes nothing.", "quantifier": "all arenas, all sources, all sessions as in C95 with strings outside of the arena", "why_tests_cant": "Growing tables moves them; a pointer kept over one growth, or a string read after being overwritten, shows only in some session.", "anchors": ["src/dom/dom.c:flo_html_createDom", "src/dom/appendix.c:flo_html_appendTextNode", "util/src/memory/arena.c", "src/dom/modification.c:flo_html_addPropertyToNode"]}
{"id": "C106", "title": "A refused HTML string changes nothing on the page, and the session goes on", "statement": "In a session as in C95 any HTML string may also be one that nests more than 256 elements. The call returns 0 and the page stays as it is; the nodes read before the refusal keep their identifiers, so that the next node gets a number behind them, and the tag names read keep the form of their first use. All later calls work on that page as in C95 and C104, in memory as in C105.", "quantifier": "all inputs, all sessions of editing calls in which any strings are refused", "why_tests_cant": "What a refused parse leaves behind shows only in later calls, and needs 257 nested elements.", "anchors": ["src/parser.c:flo_html_parseExtra", "src/dom/appendix.c:flo_html_appendHTMLFromString", "src/dom/prependix.c:flo_html_prependHTMLFromString", "src/dom/replacement.c:flo_html_replaceWithHTMLFromString"]}
{"id": "C107", "title": "A whole session fits in an arena of a size known beforehand", "statement": "Given the length n of the source, the number N of calls and the total length S of their strings (one more for each), an arena of sessionRoom(n, N, S) bytes is enough for a session as in C106 with strings outside of the arena: no call jumps to the failure handler, everything said in C105 and C106 holds at the end, and no more than that many bytes have been taken.", "quantifier": "all arenas, all sources, all sessions as in C106 with strings outside of the arena and at most 65533 bytes of HTML and new nodes", "why_tests_cant": "The memory taken depends on the growth of nine tables and the string sets over the whole history.", "anchors": ["src/dom/dom.c:flo_html_createDom", "src/dom/appendix.c:flo_html_appendHTMLFromString", "util/src/memory/arena.c", "src/dom/dom-util.c"]}
{"id": "C108", "title": "Adding a child records one parenthood", "statement": "Adding an element to a node adds one row to the table of parents, at whichever end of the children it is added, so that n additions add n rows. (Prepending violates this: it records the parent of every existing child again, so that n elements prepended to a node with k children add n*k + n*(n+1)/2 rows; appending keeps it.)", "quantifier": "all reachable documents, all nodes, all elements, any number of additions", "why_tests_cant": "The repeated rows agree with the old ones, so no reader's answer shows them; only the amount of memory does, after many calls.", "anchors": ["src/dom/prependix.c:flo_html_prependDocumentNode", "src/dom/appendix.c:flo_html_appendDocumentNode", "src/dom/dom-util.c"]}
{"id": "C109", "title": "An edit addressed by a query edits the first node the query selects", "statement": "On the page a session has built (C106), the single-result query gives the first node, in document order, of those the query selects there. A session in which editing functions are addressed by queries (well formed, each part selecting something on the page of that moment) does the same, call by call, returning the same values, as the session in which every query is replaced by that node - also if nodes that are no longer on the page match the query.", "quantifier": "all inputs, all sessions as in C106 with any edits addressed by well-formed queries, every answer to reads of a text's tag that is not a tag in use", "why_tests_cant": "Which node is edited depends on hash tables holding also removed nodes, and on a walk through the page built by the whole history.", "anchors": ["src/dom/query/query.c:flo_html_querySelector", "src/dom/appendix.c:flo_html_appendTextNodeWithQuery", "src/dom/prependix.c:flo_html_prependDocumentNodeWithQuery", "src/dom/replacement.c:flo_html_replaceWithHTMLFromStringWithQuery"]}
{"id": "C110", "title": "The answers of the buddy allocator depend on the requests alone", "statement": "The pointers a buddy allocator returns, relative to the start of its memory, and which requests it refuses, are determined by the size of the memory and the sequence of requests and returned blocks: what the memory contained, what is written into the blocks and whether they are zeroed has no influence. They are the answers of a machine on lists of block sizes.", "quantifier": "every memory of admissible size, every initial contents, every sequence of allocations, frees and writes", "why_tests_cant": "Tests compare a few sequences on one memory; the statement quantifies over all sequences and all contents.", "anchors": ["util/src/memory/buddy-allocator.c:flo_buddyAlloc", "util/src/memory/buddy-allocator.c:flo_freeBuddy", "util/src/memory/buddy-allocator.c:flo_findBestBuddy", "util/src/memory/buddy-allocator.c:flo_coalesceBuddies"]}
{"id": "C111", "title": "Looking up a name compares it with few of the names in the table", "statement": "Looking up a tag name, attribute name or value in a document compares it with at most 32 names of the table that have another hash, whatever the number of names (there are four links per entry and two hash bits choose one). (Violated: the name with identifier v is compared with the v names up to it, in their order, and a new name with all of them, so that looking up n names takes n(n+1)/2 comparisons.)", "quantifier": "all reachable documents, all names, all four tables", "why_tests_cant": "The answers are right, so that tests of the answers pass; the number of comparisons grows with the number of names, and differs from a tree's only beyond small tables.", "anchors": ["src/dom/util/string-auto-uint16-map.c:flo_trie_insertStringAutoUint16Map", "src/dom/util/string-auto-uint16-map.c:flo_trie_containsStringAutoUint16Map", "util/include/flo/util/hash/hashes.h"]}
{"id": "C112", "title": "UTF-8 in, UTF-8 out", "statement": "If the source is the UTF-8 encoding of some text, then every tag name, attribute name, value and text of the document is UTF-8 and what is printed is UTF-8; editing calls whose strings are UTF-8 keep it so: no character is ever cut in two. (Violated in one case, proved to be the only one: a source or fragment that ends in a character outside of ASCII within quotes that are not closed loses its last byte.)", "quantifier": "all inputs and fragments in UTF-8, all sessions of editing calls with strings in UTF-8", "why_tests_cant": "The lexer works on bytes; that none of its boundaries falls within a character has to hold for every position of every character.", "anchors": ["src/parser.c:flo_html_parse", "src/dom/writing.c:flo_html_printHTML", "src/dom/appendix.c:flo_html_appendHTMLFromString"]}
{"id": "C113", "title": "Only markup bytes and known names are interpreted", "statement": "Apart from white space, the bytes ! \" ' - / < = >, which bytes are letters, and the names of the elements without content and !DOCTYPE, no byte means anything: if all strings of a session (source, fragments, names, values, texts) are renamed by an injective renaming of bytes that keeps these, the session is accepted or refused as before, every call returns the same value, the nodes have the same identifiers, and every name, value and text and what is printed is the renamed one; queries renamed likewise (keeping also # * + , . [ ] ~ and the names class and id) select the same nodes of the page. In particular a change from one single-byte extension of ASCII to another commutes with everything.", "quantifier": "all neutral renamings of bytes, all inputs of at most 65533 bytes, all sessions of editing calls as in C106", "why_tests_cant": "The statement relates two runs on any pair of renamed inputs.", "anchors": ["src/parser.c:flo_html_parse", "src/parser.c:flo_html_parseExtra", "src/dom/writing.c:flo_html_printHTML", "src/dom/util/string-auto-uint16-map.c:flo_trie_insertStringAutoUint16Map"]}
{"id": "C114", "title": "Documents that show the same page are interchangeable", "statement": "Two documents with different histories may hold different tables and yet show the same page: the same nodes with the same names, attributes, texts and children, the same next identifier and the same forms of tag names. Then every navigation function, the text content and the attribute readers give the same for the nodes of the page, queries that select something select the same nodes of the page, comparing the two finds no difference, and any further editing calls return the same values on both, leave both with the same page and print the same.", "quantifier": "all pairs of reachable documents that show the same page, all sessions of editing calls as in C106 that replace attribute values on elements only", "why_tests_cant": "The statement relates two runs after any two histories; what a call reads in the tables of a long history cannot be enumerated.", "anchors": ["src/dom/appendix.c:flo_html_appendHTMLFromString", "src/dom/deletion.c:flo_html_removeNode", "src/dom/modification.c:flo_html_setPropertyValue", "src/dom/writing.c:flo_html_printHTML"]}
{"id": "C115", "title": "Strings given as data stay data", "statement": "Names, values and texts handed to the editing functions are data: when the page is printed and the text is read again, the same elements stand in the same nesting with the same attributes, and the text is the same; no string turns into markup. (Violated: nothing is escaped on output, so a text with < or a value with \" becomes elements and attributes. It is proved for harmless strings: texts without < and with normalised white space, values without \", well-formed names; > & and both quotes in texts and > < & and ' in values are harmless.)", "quantifier": "all reachable documents that show a page of harmless strings whose elements are printed in forms that fit them, within the reader's limits; all sessions of editing calls with harmless strings", "why_tests_cant": "An injection is one string among all strings at one place among all places of all pages; the statement relates the printer and the reader over all of them.", "anchors": ["src/dom/writing.c:flo_html_printHTML", "src/dom/appendix.c:flo_html_appendTextNode", "src/dom/modification.c:flo_html_setPropertyValue", "src/parser.c:flo_html_parse"]}
{"id": "C116", "title": "Printed documents can be inserted into documents; structures, texts and HTML are interchangeable", "statement": "If a document's strings need no escaping and its elements are printed in forms that fit them (C115), then its printed text, appended, prepended or put in place of a node of any document (itself included), arrives there as a copy: the same elements with the same attributes and text in the same nesting, as new nodes. A node handed over as a structure does the same as its HTML, and a text the same as that text taken as HTML: the calls lead to the same page, print the same and return the same value (but for prependTextNode and replaceWithTextNode, which return the number of a merged text, C20 and C26).", "quantifier": "all pairs of reachable documents that show pages, the first of harmless strings and nested at most 256 deep, and all nodes of the second; all structures and texts of harmless strings, all editing calls that take them, with room for identifiers", "why_tests_cant": "The statement relates the printer of one document and the fragment reader on another, or two different functions on the same document, for all documents, places and strings.", "anchors": ["src/dom/writing.c:flo_html_printHTML", "src/dom/appendix.c:flo_html_appendHTMLFromString", "src/dom/appendix.c:flo_html_appendDocumentNode", "src/dom/prependix.c:flo_html_prependHTMLFromString", "src/dom/replacement.c:flo_html_replaceWithHTMLFromString", "src/parser.c:flo_html_parseExtra"]}
{"id": "C117", "title": "Concatenation", "statement": "A well-formed piece of source means the same whatever follows it, and does not change what follows: if it is put in front of any other input, well formed or not, the document is the trees of the piece followed by the document of the other input; if the other input is refused, so is the whole (a piece that ends in a text must be followed by a tag, otherwise the text goes on). Likewise for the HTML strings of the editing functions, and appending both together is appending the one and then the other: same page, same text when printed, same value as the first call if that adds a child.", "quantifier": "all well-formed pieces of source nested within the limits, all strings behind them, all documents that show a page and nodes of it, with room for identifiers", "why_tests_cant": "A parser with positions, a stack and look-ahead can let any later byte influence what was read before; the statement is about all pairs of strings.", "anchors": ["src/parser.c:flo_html_parse", "src/parser.c:flo_html_parseExtra", "src/dom/appendix.c:flo_html_appendHTMLFromString", "src/dom/dom.c:flo_html_createDom"]}
{"id": "C118", "title": "Row pointers and the last sibling", "statement": "flo_html_getFirstChildNode, getParentNode, getNextNode, getPreviousNode and getLastNextNode return a pointer into a link table through which callers read and write. In every document reached by parsing and editing, the pointer is the table row that holds exactly the link asked for, and NULL exactly when there is no such link: the first child of a node, the parent of a child, the next and the previous sibling, and for getLastNextNode the row from the last but one to the last sibling. flo_html_getLastNext returns the last child of the node's parent and always comes back.", "quantifier": "all reachable documents, all nodes and all of their children", "why_tests_cant": "Which rows exist, and in which order, depends on the whole history of edits; a stale or foreign row shows only when it is written through.", "anchors": ["src/dom/traversal.c:flo_html_getLastNextNode", "src/dom/traversal.c:flo_html_getLastNext", "src/dom/traversal.c:flo_html_getNextNode", "src/dom/traversal.c:flo_html_getParentNode", "src/dom/traversal.c:flo_html_getFirstChildNode"]}
{"id": "C119", "title": "A document that stays small can be edited for ever", "statement": "Removing nodes makes room for new ones: a session that keeps adding and removing, so that the document never gets large, never fails for lack of identifiers. (Violated: identifiers are never given back. An empty document to which one element is added and removed again, over and over, is empty after each round, and the 65534th round takes the failure exit; in any session each call that is handed an element or a text spends one identifier for good, also when the text is merged into another.)", "quantifier": "all reachable documents, all sessions of editing calls of any length", "why_tests_cant": "The failure comes after 65533 rounds of any calls in any order.", "anchors": ["src/dom/deletion.c:flo_html_removeNode", "src/dom/dom-util.c:flo_html_createNode", "src/dom/appendix.c:flo_html_appendDocumentNode"]}
{"id": "C120", "title": "Equality is transitive, and equal documents compare alike with others", "statement": "If flo_html_equals reports two documents equal, then comparing either of them with any third document gives the same status and names the same node of the third, or takes the failure handler for both. In particular, if a equals b and b equals c, then a equals c, and that comparison does not take the failure handler.", "quantifier": "every triple of reachable DOMs", "why_tests_cant": "The statement is about three arbitrary documents with arbitrary histories; the comparison works with fixed-size hash sets whose overflow depends on the attributes of the elements.", "anchors": ["src/dom/comparison.c:flo_html_equals"]}
{"id": "C121", "title": "The attribute functions satisfy the laws of a key-value list", "statement": "For every node of every document: setting an attribute's value twice has the effect of the last call alone, and setting then removing has the effect of removing alone. Two calls for the same node about different keys, about different boolean attributes, or one about a key and one about a boolean attribute can be exchanged (except two additions to the same list, whose order is printed). On an element without the key, add-then-remove leaves no trace, add-then-set is add with the second value, and set and remove alone change nothing; setting the value an attribute already has changes nothing; a boolean attribute not present that is added and removed leaves no trace. In each case the documents show the same page and print the same text.", "quantifier": "every reachable DOM with room for two more identifiers, every node of it, every key, value and boolean attribute", "why_tests_cant": "The laws are equalities between the results of different call sequences for all keys and values and on all documents; the attributes are kept in flat arrays shared by all nodes and removal moves the entries behind.", "anchors": ["src/dom/modification.c:flo_html_setPropertyValue", "src/dom/modification.c:flo_html_addPropertyToNode", "src/dom/deletion.c:flo_html_removeProperty", "src/dom/deletion.c:flo_html_removeBooleanProperty"]}
{"id": "C122", "title": "The printed text determines the document", "statement": "Two documents, whatever their histories, that print the same text have the same elements with the same attributes in the same nesting and the same text (texts standing next to each other count as one), every element name on them is printed in the same form, and flo_html_equals reports them equal if neither has neighbouring texts. (The code satisfies this for documents of harmless strings only: nothing is escaped.)", "quantifier": "every pair of reachable documents of any size that print the same text", "why_tests_cant": "The statement is about all pairs of documents and all their histories; that two different documents never print alike needs the inverse of the printer.", "anchors": ["src/dom/writing.c:flo_html_writeHTMLToFile", "src/dom/comparison.c:flo_html_equals"]}
{"id": "C123", "title": "Different calls for the same edit have the same effect", "statement": "On a node without children, the append functions and the prepend functions do the same. Setting the text content of a node is the same as removing its children and then appending (or prepending) the text. Removing the children twice is the same as once, and setting the text twice gives the same document as setting the last text. Replacing the last child of a node by a text, an element or an HTML string is the same as removing it and appending to the parent; replacing the first child is the same as removing it and prepending. Appending a text to a node whose last child is a text is the same as adding the text at the end of that child; prepending one to a node whose first child is a text is the same as adding it at the beginning of that child (identifiers of nodes created later may differ). The same means: both sequences succeed and lead to documents with the same nodes (identifiers included, except for setting the text twice), children, names, attributes and texts, and the same printed text.", "quantifier": "every reachable DOM with room, every node of it of the right kind, every text, element description and HTML string that stands for something (for replacement by HTML: outside C27's two cases)", "why_tests_cant": "These are equalities between results of different functions with separate link handling (appendix.c, prependix.c, replacement.c, deletion.c), for all documents and all arguments, including the merging with neighbouring texts.", "anchors": ["src/dom/appendix.c:flo_html_appendDocumentNode", "src/dom/prependix.c:flo_html_prependDocumentNode", "src/dom/replacement.c:flo_html_replaceWithDocumentNode", "src/dom/deletion.c:flo_html_removeChildren", "src/dom/modification.c:flo_html_setTextContent"]}
{"id": "C124", "title": "The laws of selectors", "statement": "Between the answers to different queries on the same document: blanks and the order of conditions do not matter (same nodes of the document, or both refused as unknown). A selector with several conditions answers the intersection of what its parts answer. A chain answers exactly the nodes that its last selector alone answers and that the last combinator reaches from a node the shorter chain answers; so replacing a child combinator by a descendant combinator, or an adjacent by a general sibling combinator, anywhere in the query, never loses a node, and never turns an answer into a refusal.", "quantifier": "every reachable DOM, every well-formed query of at most eight conditions per selector, every answer to reads of a text's tag, every node of the document (for intersections: every node at all)", "why_tests_cant": "The laws relate the answers of several queries, for all documents, all queries of any length and all places in them; the evaluation works on hash sets of bounded size and in an order of its own.", "anchors": ["src/dom/query/query.c:flo_html_querySelectorAll", "src/dom/query/query-util.c:flo_html_getFilteredDescendants"]}
{"id": "C125", "title": "A call that runs out of memory leaves what is read as it was", "statement": "A call leaves through the failure exit at any of the allocations it makes. Wherever that is, the program that catches the failure finds the document as it was before the call: kind, text, tag and attributes of every node, first child, next, previous and parent, the answers of the attribute functions and the text printed. Removing calls never fail. With memory enough the call does what the other properties say.", "quantifier": "every reachable DOM, every mutating call with every argument, every allocation at which the memory may run out", "why_tests_cant": "Each call makes many allocations (a new attribute alone up to five), whether one needs memory depends on the whole history, and the state at each of these points has to be compared with the state before.", "anchors": ["src/dom/modification.c:flo_html_addPropertyToNode", "src/dom/modification.c:flo_html_setTextContent", "src/dom/appendix.c:updateReferences", "src/dom/prependix.c:updateReferences", "src/dom/replacement.c:updateReferences", "util/src/memory/arena.c:flo_alloc"]}
{"id": "C126", "title": "A fragment whose parse fails is not seen", "statement": "While the HTML of an append, prepend or replace is parsed into the document's tables, nothing of the document changes: wherever the memory runs out, when the fragment is refused for its depth, and even when it is complete but not yet attached, everything that is read of the document's nodes, and the text printed, is as before.", "quantifier": "every reachable DOM, every string, every allocation at which the memory may run out, every answer to reads outside the nesting stack", "why_tests_cant": "A parse makes arbitrarily many allocations and writes to all tables of the document; every one of the intermediate states must be unseen.", "anchors": ["src/parser.c:flo_html_parseExtra", "src/parser.c:flo_html_parse", "src/parser.c:parseDocumentNode", "src/parser.c:parseTextNode"]}
{"id": "C127", "title": "After a failure the call can be made again", "statement": "A program that catches the failure, frees memory elsewhere and calls again gets what the first call would have given; and other calls are not disturbed by the failed one.", "quantifier": "every reachable DOM, every call that changes attributes, texts or tags, every allocation at which the memory may run out, every continuation", "why_tests_cant": "The state after a failure is none that successful calls reach, and the damage shows only in the answers of later calls.", "anchors": ["src/dom/modification.c:getCreatedPropIDFromString", "src/dom/util/string-auto-uint16-map.c:flo_trie_insertStringAutoUint16Map", "src/dom/modification.c:flo_html_setTagOnDocumentNode"]}
{"id": "C128", "title": "An array into which a push failed can be used again", "statement": "A push onto a dynamic array, or an append to a byte buffer, that leaves through the failure exit leaves the elements, the arena and the memory as they were, and the next push or append with memory enough works as if nothing had failed.", "quantifier": "every element size and alignment, every array, every arena, every arena used afterwards", "why_tests_cant": "Whether the allocation fails depends on the whole history of the arena; the damage appears only at the next push, wherever in the program that is.", "anchors": ["util/include/flo/util/array.h:flo_grow", "util/include/flo/util/array.h:FLO_PUSH_2", "util/include/flo/util/raw-data.h:flo_addRawData"]}
{"id": "C129", "title": "After a failing edit the document can be printed", "statement": "Wherever an edit leaves through the failure exit because memory ran out, printing the document it leaves terminates, reads only inside the tables and returns a text.", "quantifier": "every document that can be reached by parsing, duplicating and editing, every allowed edit with every argument (including HTML fragments), every point at which its memory may run out", "why_tests_cant": "An edit takes memory at many places, in loops over fragments of any size; between two of them the link tables are in a state that no completed call ever leaves.", "anchors": ["src/dom/appendix.c:updateReferences", "src/dom/prependix.c:updateReferences", "src/dom/replacement.c:updateReferences", "src/dom/replacement.c:flo_html_replaceWithHTMLFromString", "src/dom/writing.c:flo_html_printHTML"]}
{"id": "C130", "title": "A failing edit changes one list of children only", "statement": "Wherever appending to, prepending to or replacing a child of a node p by a fragment fails because memory ran out, every other node that was there has the children it had, every node has its kind, tag, attributes and text (a text may be longer at either end), and the children of p are: after appending, those it had and possibly new ones behind them; after prepending, those it had with new ones possibly in front, or new ones alone; after replacing by a fragment, those it had, or those before the replaced node and then new ones. After failing to set a text, the nodes below are removed, the node has no child or the new text, and nothing outside the subtree has changed. Where one of the other calls (changing attributes, adding to a text, changing a tag, replacing a node by an element or a text) fails, no list of children has changed.", "quantifier": "every document that can be reached by parsing, duplicating and editing, every allowed call of these functions with every argument, every point at which its memory may run out", "why_tests_cant": "The failing point may lie inside the loops that copy links of a fragment of any size; what is lost depends on the order in which the link tables are written.", "anchors": ["src/dom/appendix.c:updateReferences", "src/dom/prependix.c:updateReferences", "src/dom/replacement.c:updateReferences", "src/dom/modification.c:flo_html_setTextContent", "src/dom/replacement.c:flo_html_replaceWithHTMLFromString"]}
{"id": "C131", "title": "A failing call does not change the answers to queries", "statement": "After a call that has failed because memory ran out, every query that was answered before is answered with the same nodes.", "quantifier": "every document, every mutating call that fails with every argument at every point, every query text", "why_tests_cant": "A query looks at every stored node and at the tables of names, and a failing call leaves nodes and names behind that belong to nothing; which ones depends on the point of failure.", "anchors": ["src/dom/query/query.c:flo_html_querySelectorAll", "src/dom/query/query-util.c:flo_html_filterNode", "src/dom/appendix.c:flo_html_appendHTMLFromStringWithQuery", "src/dom/modification.c:flo_html_setTagOnDocumentNode"]}
{"id": "C132", "title": "Edits of different nodes can be made in either order", "statement": "Putting a text, an element or an HTML string at either end of the children of one node, and doing so at another node (which may be below the first); changing the attributes or the tag of an element and putting something among the children of any node; changing the attributes, text or tag of one node and of another; removing a node and removing another, changing the attributes, text or tag of one, or putting something among the children of one that is not its parent, if both calls are in order either way: in either order both calls succeed, and the trees, the number of nodes and - if no new tag name is used in two forms - the printed text are the same.  If a new name is used in two forms, the first use decides how both elements print.", "quantifier": "all documents that can be reached, all pairs of nodes, all texts, elements and HTML strings, all attribute names and values, all tags", "why_tests_cant": "All pairs of calls in all documents: node numbers, merged texts and the global tables of names depend on the order.", "anchors": ["src/dom/appendix.c:flo_html_appendHTMLFromString", "src/dom/prependix.c:flo_html_prependHTMLFromString", "src/dom/modification.c:flo_html_setTagOnDocumentNode"]}
{"id": "C133", "title": "An edit of a node does not change the answers to queries that do not mention what is edited", "statement": "A call that changes an attribute, the text or the tag of a node leaves the answer to every query as it was, as far as the nodes of the document are concerned, if no condition of the query is on that key or boolean attribute and no selector of it names the old or the new tag; a query that was answered is still answered.", "quantifier": "all documents that can be reached with attribute calls on elements, all such calls, all well-formed queries", "why_tests_cant": "A query looks at global tables of names, attributes and children; an edit adds rows and names there for any node.", "anchors": ["src/dom/query/query.c:flo_html_querySelectorAll", "src/dom/modification.c:flo_html_addPropertyToNode", "src/dom/modification.c:flo_html_setTagOnDocumentNode"]}
{"id": "C134", "title": "A change of attributes, of a text or of a tag leaves navigation as it was, and the text contents unless it changes a text", "statement": "Adding, changing or removing an attribute, adding text to a text node and setting the tag of an element leave first child, parent, next and previous of every node of the document as they were, and the walk over the document gives the same nodes in the same order. Attribute calls and setting a tag leave the text content of every node as it was, too.", "quantifier": "all documents that can be reached, all such calls with room for them, all nodes of the document", "why_tests_cant": "Names, attributes, texts and children are in global tables that grow and are shifted; a wrong row would show anywhere.", "anchors": ["src/dom/modification.c:flo_html_addPropertyToNode", "src/dom/modification.c:flo_html_setTagOnDocumentNode", "src/dom/modification.c:flo_html_addTextToTextNode", "src/dom/traversal.c:flo_html_traverseDom", "src/dom/traversal.c:flo_html_getNext"]}
