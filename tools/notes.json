{
 "notes": {
  "C01": "Fuel of every loop is proved sufficient, for the document and the fragment parser.",
  "C02": "Violated by an input whose very last byte is a quote opening an attribute; proved for all other inputs. C02_exact_partial gives the violating inputs exactly.",
  "C03": "NULL implies an element 256 levels deep; success bounds the depth; the nesting stack stays within its 256 slots. C03_exact gives the inputs that yield NULL exactly.",
  "C13": "Violated: the child subscript is hash<<62, not hash>>62; proved that only child link 0 is ever followed in memory that is in bounds.",
  "C14": "Violated by inserting an empty fragment below a childless node; proved for every history of edits satisfying the preconditions.",
  "C16": "Violated for a childless start node with a next sibling, where the walk runs to the end of the document (exactly characterised: C16_traverseNode_leaf, C16_textContent_leaf); proved for all other start nodes.",
  "C20": "Violated by prependTextNode after a merge, where it returns the removed node (exactly: C20_prependTextNode_exact_partial); proved for appendTextNode and the non-merging prepend.",
  "C26": "Violated: queries still find a replaced node and its descendants; proved that they are not part of the tree any more. C26_exact_partial: such nodes are found by exactly the selectors that found them before.",
  "C29": "Any sequence of attribute operations refines a per-node list store.",
  "C04": "The tables of every parsed document describe one tree (every node but the root has one parent, links agree).",
  "C05": "Identifiers are 2, 3, ... in document order.",
  "C06": "Texts are normalised, and contain exactly the words of the source between tags.",
  "C07": "Violated: script/style contents are parsed as markup and lose line breaks; proved for contents without markup and line breaks, up to white space. What happens otherwise is given by C93 for every content.",
  "C08": "For every input: void and ! elements have no children (self-closed ones: C93).",
  "C09": "Every clean source parses to exactly its trees (all white space, quoting and comment variants).",
  "C10": "Blank input gives an empty document; sources that differ in blanks only give the same trees.",
  "C11": "Any sequence of insertions refines first-seen numbering.",
  "C12": "longjmp exactly when the 65535 identifiers are used up; never a wrong identifier.",
  "C15": "traverseDom visits exactly the preorder of the tree, once each.",
  "C17": "Exact effect on child lists and node contents for every reachable DOM, or the failure exit (C72 says when).",
  "C18": "As C17, in front.",
  "C19": "Both the merging and the non-merging case, exactly.",
  "C21": "Exact effect for every node that has a parent.",
  "C22": "Exact effect of removeChildren and setTextContent.",
  "C23": "For every fragment accepted by the parser; the inserted trees are those of the fragment parsed on its own.",
  "C24": "As C23, in front.",
  "C25": "Exact effect of replaceWithDocumentNode and of all three cases of replaceWithTextNode.",
  "C27": "Violated in three situations (witnesses). Proved for fragments of several trees and for a single text; the violated situations are characterised exactly for all documents: first child (null dereference), last child (returns 0), two texts between two texts (a removed node is linked).",
  "C28": "Violated: the insertion functions use the result of an empty fragment. Proved: parsing such a fragment changes nothing; C28_exact_partial says for every document what the insertions do (a dangling child, or a read beyond the node table).",
  "C30": "Frame condition for every attribute operation.",
  "C31": "Violated by the union read on text nodes and by '*'; proved for compounds with a tag, attributes, flags and a trailing class/id under the stated condition on the punned value. C31_exact_partial gives the exact answer for every node without that condition.",
  "C32": "Violated by '*' after a combinator; proved for every chain of compounds with the four combinators. C32_exact_partial gives the exact answer without the condition on texts.",
  "C33": "querySelector returns the first element of querySelectorAll's result, or nothing.",
  "C34": "Every query string on every reachable DOM ends with a result, a defined error or the failure exit; never undefined behaviour.",
  "C35": "The result of a comma list is the union of the results, without duplicates.",
  "C36": "Violated: attribute selectors ignore removal; proved for parsed documents and for results of combinators. C36_removed_exact_partial: exactly the selectors without a tag name that matched before still answer a removed node.",
  "C37": "Violated: a class selector ends the evaluation; proved for a class at the end of a compound, and exactly what the rest of such a query does (C37_exact_partial, C37_finds_partial: everything up to the next . or # is skipped, which then is one more condition on the same node).",
  "C38": "Violated when the query matches nothing: then the edit is carried out with node 0 (C38_no_match_partial, exact). With a match exactly the edit on the first match, on a query error nothing. Such an edit also says nothing on stderr (C38_violated_silent).",
  "C39": "equals d d, and equals d (duplicate d), for every reachable DOM without more than 64 attributes on a node.",
  "C40": "Symmetric for all pairs of reachable DOMs (where it returns).",
  "C41": "Violated: pairs of attributes are compared as two separate sets. Proved: exactly when documents are reported equal (same tree, tags, texts, flags, and same sets of keys and values), and otherwise that the reported nodes are the first ones in document order that differ, with the right status.",
  "C42": "Violated for DOMs with an empty table (capacity 0 buffer); proved for copies whose tables are not empty: writes to one never show in the other. C90-C92 prove the same of the whole duplicating code on a model of memory, for several DOMs in one arena.",
  "C43": "For every sequence of log calls and every schedule of partial writes: the bytes written plus the buffer are the bytes logged.",
  "C44": "All 64-bit integers, signed and unsigned.",
  "C45": "Blocks are aligned, inside, disjoint, zeroed; failure exactly when the room is short; empty requests may end outside (documented example).",
  "C46": "Contents survive any history of pushes and growth; growth fails only for lack of arena room.",
  "C47": "Concatenation is preserved over growth.",
  "C48": "Any history of insertions and resets; C48_any_exponent: sets made with an exponent of the caller's choice (1 or more).",
  "C49": "Contents and the exact condition of failure over any history.",
  "C50": "String set, 16-bit set, string map and the DOM's name table refine sets/maps over any history.",
  "C51": "Chunks handed out are disjoint and never handed out twice, over any history.",
  "C52": "Violated for absolute paths, for which nothing at all is made (C52_absolute_exact_partial); proved: the sequence of mkdir calls, and that they create the directories of a relative path.",
  "C53": "Each helper equals its list definition for all strings.",
  "C54": "Violated: pairedness per name; proved what is printed for every reachable document, and the full property for consistent sources. See C74 for inconsistent ones. C54_every_input_partial: what is printed for every input.",
  "C55": "Violated by unquoted flags before '/>' and by adjacent texts; proved for all printable documents. C55_exact_partial says for every input whether the printed text parses to the same trees.",
  "C56": "Table lengths stay below 2^16 in every reachable DOM (histories without empty-fragment insertion).",
  "C57": "Violated: last digit dropped; proved exactly what is written.",
  "C58": "Blocks handed out are disjoint, inside, aligned headers, over any history.",
  "C59": "Documents up to 65533 bytes never exhaust identifiers.",
  "C60": "Violated after write errors; proved that nothing is lost, that flush reports the error, exactly when a byte is stored behind the buffer (C60_newline_exact_partial), and exactly which texts a failing file can receive (C60_delivery_exact_partial).",
  "C61": "Violated for negative values; proved exactly what is written for every int.",
  "C62": "The arithmetic that splits the number into integral part and millionths is the subject of C99; here everything after it.",
  "C63": "Violated for getParent; proved for children and siblings, the full property for parsed documents (C63_parsed_partial), and exactly which removed nodes keep their parent otherwise (C63_parent_exact_partial, C63_removeChildren_exact_partial: those recorded twice).",
  "C64": "Violated when chunks are free; proved when all chunks are live, and exactly what happens otherwise (C64_reset_exact_partial: a chunk is handed out twice and the pool never runs out).",
  "C65": "Violated by overflow of size*count; proved without overflow, and C65_exact_partial: the request counts its product modulo 2^64.",
  "C66": "Violated by the terminator; proved for append, for copy with one spare byte, and exactly what a copy writes (C66_copy_exact_partial).",
  "C67": "Violated for new keys; proved for existing keys.",
  "C68": "At most 9 nodes per insertion, for every set of 16-bit keys.",
  "C69": "Violated for unseekable files; proved for regular reads, including short reads and errors, and exactly what happens for unseekable files (C69_unseekable_exact_partial).",
  "C70": "The file variants equal reading the file and calling the string variant.",
  "C71": "Violated: write errors are not reported; proved: what is written, for every schedule of partial writes, when no error occurs; and for every schedule with errors that success is reported and exactly which contents the file can get (C71_exact_partial, C71_lost_partial).",
  "C72": "Edits and whole sessions succeed while identifiers last; the cost of each edit is explicit.",
  "C73": "Violated: coalescing is incomplete, the search skips the last block, and blocks that are not buddies are joined, after which a completely free memory is fragmented for good (C73_violated_forever). Proved: exactly when a request is granted, after any history (C73_exact_partial, a machine on lists of blocks); smaller requests are granted if larger ones are; after a refusal no block but the last could have served it; a fresh allocator grants everything that fits; k equal requests; a freed block is granted again if a block in use lies behind it.",
  "C74": "Registry after parsing and after every edit, for all names; printing of inconsistent sources.",
  "C75": "Noninterference with everything outside the managed memory, for both allocators and every history. flo_freePool is not covered (C64).",
  "C76": "Mutual induction over a grammar of sources with errors; the resulting document is given explicitly. All other errors are covered by C93.",
  "C77": "Proved for every mutating call, including HTML insertion, and every query string.",
  "C78": "Numbers in the report are assumed to fit their types (Printable: names shorter than 4 GiB, attribute and link rows fewer than 2^63).",
  "C79": "Violated: the tag of the first node is printed for both, and nodes that differ in the number of children are reported as not different. Proved: the exact text of the report for every pair of nodes, when the failure handler is taken (more than 64 attributes), and when the report after a comparison says that nothing differs.",
  "C80": "Violated: padding and repeating return 1, so the count of a double is also wrong. Proved: output and return values of every sequence of calls, and exactly which calls return the number of characters.",
  "C81": "The DOM is a value, the sets, the result array and the arena are bytes at addresses. The 16-byte result header of querySelector is allocated but its stores are not modelled.",
  "C82": "The bound is sufficient, not tight.",
  "C83": "Model DomMem (all tables, texts and map nodes are bytes in the arena) follows createDom. Assumes 0 < arena address, addresses below 2^62, source outside the free part. Says nothing where createDom itself has undefined behaviour (C02).",
  "C84": "Upper bound, not claimed tight.",
  "C85": "Standard error only; stdout reports are C78, C79.",
  "C86": "Every integer is covered, also those that are no codes.",
  "C87": "Assumes writes without errors; with errors see C60.",
  "C88": "Model EditMem follows Edit on the bytes of the arena. Assumes 16-bit ids, string arguments in memory the caller owns, 0 < arena address and addresses below 2^62. For several DOMs and duplicates see C90-C92.",
  "C89": "Upper bound, not claimed tight.",
  "C90": "Model DupMem follows duplicateDom on the bytes of the arena. Same assumptions on addresses as C83.",
  "C91": "Edits only of DOMs whose empty tables have no memory (Growable: every parsed and edited DOM; duplicates exactly by C92_duplicate_growable_iff).",
  "C92": "Violated: FLO_COPY_DYNAMIC_ARRAY gives an empty table an address and capacity 0, and flo_grow doubles 0; the next entry is written to memory that was not reserved. Partial: proved for duplicates of DOMs whose five tables all have entries.",
  "C93": "The reference reader is Spec/Reference.lean; nothing in it refers to the parser. C93_every_input is total functional correctness of createDom up to 65533 bytes, C93_any_size beyond.",
  "C94": "For every fragment with identifiers left for its bytes. The situations in which the insertion functions misbehave (C27, C28, C02) are included with what happens there.",
  "C95": "Strings that are refused because they nest too deeply are not operations of the machine here; C106 adds them.",
  "C96": "On the page of C95; undo of one element (a single text is merged, several trees need several removals).",
  "C97": "On the page of C95.",
  "C98": "On the page of C95; an element that was registered without content is printed without it (C54).",
  "C99": "Violated for NaN (undefined conversion to an integer); proved for all other values. IEEE 754 binary64, each operation rounded once to nearest even; C99_rounding_is_nearest checks the rounding of the model against that description.",
  "C100": "Proved for histories whose attribute calls name elements (Proper); C100_condition shows that the condition is needed.",
  "C101": "Only the part of the answer on the page is characterised after edits: nodes that were removed or replaced can be answered too (C26, C31). PunFree as in C31/C32. Queries with at most eight conditions per selector; more are refused (C35).",
  "C102": "The walk and text content of a childless node with a next sibling are characterised as they are (the C16 violation): the rest of the page. Attribute readers for histories whose attribute calls name elements (C100).",
  "C103": "Label.Like is what the code compares: keys and values as separate sets (the C41 violation). For histories whose attribute calls name elements (C100).",
  "C104": "On the page of C95.",
  "C105": "Strings of the calls outside of the arena (strings inside a part of the arena the program has used are covered call by call by C88). Calls allowed on the page, as in C95.",
  "C106": "Sessions of C95 with refused strings added. Fragments without any tree, and the two clashing replacements of C27, stay excluded (the code goes wrong there).",
  "C107": "The bound is explicit (Spec/SessionRoom.lean) and quadratic in the number of calls times the size of the tables, because the code can record every sibling again in each call (C108) and doubles its tables in a bump arena without reusing the old block. It is sufficient, not tight.",
  "C108": "Appending: one row, proved for every reachable DOM. Prepending: the exact count, which is not one (C108_violated for any number of children that fits). Stated for elements; texts and HTML strings use the same function.",
  "C109": "What happens when the query selects nothing is C38 (there the code edits node 0); C109_selector lists all outcomes. Stated with the edit functions of the model without the messages; with the messages the call does and returns the same (C85).",
  "C110": "Full functional correctness of the allocator against the list machine in Spec/BlockList.lean, for every history; answers and block list.",
  "C111": "Violated: because the child subscript is hash << 62 (C13), each table is a linked list in the order of the identifiers. Proved exactly: which names a lookup compares, in every reachable document; their number; the quadratic total.",
  "C112": "Violated by <a b=\"é: a value whose closing quote is missing loses the last byte of the source, half a character. Proved for sources and fragments that end in an ASCII character or are empty (parse, print, every call, whole sessions), and for all sources that this is the only way (C112_exact_partial).",
  "C113": "Proved by showing that the reference reader, the page operations and the printer commute with the renaming, and C93/C95/C106. C113_encodings: any injective renaming that fixes ASCII qualifies.",
  "C114": "Values are determined by the pages before and after a call (gives_det), pages by C106, readers by C102. Replacing attribute values on texts is excluded: texts can hold attributes that no page shows (C100_condition).",
  "C115": "Missing because the code violates it: strings with markup in them (C115_violated: an appended text becomes an element, a value becomes a second attribute). Proved for harmless strings: the printed page is Printable once neighbouring texts are joined, so it is read back by the reparse theorem; harmless strings in, harmless pages out, through every editing call and session.",
  "C116": "C116_copy: the three HTML functions with the printed text of a page; C116_content: joined texts leave elements, attributes and text as they are; C116_interchangeable: structure or text against its HTML. A text in place of a first child with a text behind it is excluded (undefined behaviour, C27).",
  "C117": "C117_outcome / C117_parse / C117_refused: documents; C117_fragment, C117_append: HTML strings. The other input is any string; if it ends in an open quote (a read outside the input, C02), the whole has no document either.",
  "C118": "C118_last: getLastNext; C118_last_row: getLastNextNode; C118_rows: the other row-returning functions; C118_root: the root. A row is given by its index in the model's table. Reachable as in C14 (no empty fragments).",
  "C119": "Violated: C119_violated gives the exact round at which the failure exit is taken, for any number of rounds. C119_spends and C119_lifetime: what each call spends, and the bound that follows for every session. C72 is the counterpart: as long as identifiers last, edits succeed.",
  "C120": "With C39 and C40: equality is an equivalence relation on reachable DOMs (as far as the failure handler is not taken), though not the intended one (C41).",
  "C121": "Complements C97 (attribute calls against all other edits) for calls on the same node.",
  "C122": "Partial: C122_violated shows a text with markup that prints like an element while the comparison tells the two apart. Proved for pages of harmless strings whose forms fit (as in C115).",
  "C123": "Complements C96 and C97 (laws between calls).",
  "C124": "Beside C35 (comma is union). With the exact answers of C31/C32, hence without an assumption about the bytes read as tags of texts.",
  "C125": "Holds for attributes, texts, tags and for replacing by an element or a text (C125_attributes, C125_replace); removing never fails (C125_remove); the programs are the functions of the other models (C125_program). For appending: as before, or as after success but without the row of the new node in the table of parents. Violated otherwise (C125_violated): a failing prepend loses all old children of the parent, a failing setTextContent leaves the node empty, a failing append leaves a child without parent, a failing replacement by HTML loses the following siblings. Failing prepends of one element or text: exactly three outcomes (C125_prepend_partial: unchanged; as after success but for rows of the table of parents; the old children of that one node lost). Failing setText: the children are gone, otherwise as after the removal or as after success but for parents (C125_setText_partial). Missing: the exact outcomes of appendHTML/prependHTML/replaceHTML after the fragment was parsed (while it is parsed: C126).",
  "C126": "C126_fragment for the parse, C126_calls for the three calls that take HTML.",
  "C127": "Violated (C127_violated): a new name takes two allocations, first in the map that gives it a number, then in the table of names; when the second fails, the number has no name. Calling again finds the number and succeeds, and printing then reads outside the table; names added later stand one place off, so a paragraph with the attribute title is printed with class. C127_again_partial: if no number is without its name, calling again does exactly what the first call would have done.",
  "C128": "Elements, arena and memory are kept (C128_kept), and arrays that have a buffer can be used again (C128_again_partial). Violated for every array that has none yet (C128_violated): flo_grow writes the capacity 1 before it asks for the memory, so the next push takes the slot of the NULL pointer; flo_addRawData does the same with the length of the data. The attribute tables of a document without attributes, and the link tables of an empty document, are such arrays. Tables are lists in Crash.lean (C125-C127), which therefore do not show this.",
  "C129": "All edits, at every failure point (C129_prints). It speaks of one failing call: after a second call on the document left, printing may read outside a table (C127_violated).",
  "C130": "C130_append, C130_prepend, C130_replace, C130_setText, C130_others (the remaining edits change no old kid list at all, even when they fail). The losses the statement allows do occur (the examples in Props/CrashPrint.lean): a failing prepend can lose all old children, a failing replacement the replaced node and every sibling behind it.",
  "C131": "C131_one_node: attributes, texts and tags, for every DOM, every query text and whatever is read through the union; also the refusals are the same, except that an unknown name may have become known. C131_replace_partial: replacing by an element or a text; every answered query is answered, and with the same old nodes, but also with the element the failed call has made. C131_violated: appending a fragment. Missing: what the answers are in the middle of linking.",
  "C132": "C132_children, C132_element, C132_labels: the trees and the print; C132_removals, C132_removal, C132_removal_label: the same page with the same numbers; C132_forms: two forms of a new name print differently in the two orders; C132_neighbour: at the parent of a removed node the order matters (texts are merged). Within 65533 bytes, nodes and names, as in C95.",
  "C133": "C133_unmentioned. Nodes that are no longer in the document can be among the answers before and after (C36), and are not spoken of; texts as in C101 (PunFree).",
  "C134": "C134_navigation, C134_content. Room as in C95. The text content of a childless node with a next sibling goes on through the document (C16); it, too, is as it was."
 },
 "not_applicable": {}
}
