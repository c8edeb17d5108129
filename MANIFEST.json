{
 "claims": [
  {
   "property": "C01",
   "status": "proved",
   "theorems": [
    "Flo.C01_createDom_terminates",
    "Flo.C01_parseExtra_terminates"
   ],
   "note": "Fuel of every loop is proved sufficient, for the document and the fragment parser."
  },
  {
   "property": "C02",
   "status": "partial",
   "theorems": [
    "Flo.C02_violated",
    "Flo.C02_createDom_reads_in_bounds_partial",
    "Flo.C02_no_ub_partial",
    "Flo.C02_exact_partial"
   ],
   "note": "Violated by an input whose very last byte is a quote opening an attribute; proved for all other inputs. C02_exact_partial gives the violating inputs exactly."
  },
  {
   "property": "C03",
   "status": "proved",
   "theorems": [
    "Flo.C03_null_means_too_deep",
    "Flo.C03_success_bounds_depth",
    "Flo.C03_stack_in_bounds",
    "Flo.C03_exact"
   ],
   "note": "NULL implies an element 256 levels deep; success bounds the depth; the nesting stack stays within its 256 slots. C03_exact gives the inputs that yield NULL exactly."
  },
  {
   "property": "C04",
   "status": "proved",
   "theorems": [
    "Flo.C04_parsed_tree"
   ],
   "note": "The tables of every parsed document describe one tree (every node but the root has one parent, links agree)."
  },
  {
   "property": "C05",
   "status": "proved",
   "theorems": [
    "Flo.C05_document_order"
   ],
   "note": "Identifiers are 2, 3, ... in document order."
  },
  {
   "property": "C06",
   "status": "proved",
   "theorems": [
    "Flo.C06_text_normal",
    "Flo.C06_words",
    "Flo.C06_words_document"
   ],
   "note": "Texts are normalised, and contain exactly the words of the source between tags."
  },
  {
   "property": "C07",
   "status": "partial",
   "theorems": [
    "Flo.C07_violated",
    "Flo.C07_linebreak_violated",
    "Flo.C07_raw_text_partial",
    "Flo.C07_normal_text_partial"
   ],
   "note": "Violated: script/style contents are parsed as markup and lose line breaks; proved for contents without markup and line breaks, up to white space. What happens otherwise is given by C93 for every content."
  },
  {
   "property": "C08",
   "status": "proved",
   "theorems": [
    "Flo.C08_void_no_children"
   ],
   "note": "For every input: void and ! elements have no children (self-closed ones: C93)."
  },
  {
   "property": "C09",
   "status": "proved",
   "theorems": [
    "Flo.C09_parse_render",
    "Flo.C09_parse_render_any_size",
    "Flo.C09_clean_fragment"
   ],
   "note": "Every clean source parses to exactly its trees (all white space, quoting and comment variants)."
  },
  {
   "property": "C10",
   "status": "proved",
   "theorems": [
    "Flo.C10_blank_document",
    "Flo.C10_blanks_irrelevant"
   ],
   "note": "Blank input gives an empty document; sources that differ in blanks only give the same trees."
  },
  {
   "property": "C11",
   "status": "proved",
   "theorems": [
    "Flo.C11_interning",
    "Flo.C11_same_id_iff_same_string",
    "Flo.C11_registry_of_parsed"
   ],
   "note": "Any sequence of insertions refines first-seen numbering."
  },
  {
   "property": "C12",
   "status": "proved",
   "theorems": [
    "Flo.C12_names_exhaustion",
    "Flo.C12_nodes_exhaustion"
   ],
   "note": "longjmp exactly when the 65535 identifiers are used up; never a wrong identifier."
  },
  {
   "property": "C13",
   "status": "partial",
   "theorems": [
    "Flo.C13_violated",
    "Flo.C13_violated_witness",
    "Flo.C13_link_zero_partial"
   ],
   "note": "Violated: the child subscript is hash<<62, not hash>>62; proved that only child link 0 is ever followed in memory that is in bounds."
  },
  {
   "property": "C14",
   "status": "partial",
   "theorems": [
    "Flo.C14_violated",
    "Flo.C14_navigation_partial",
    "Flo.C14_edits_are_safe_partial"
   ],
   "note": "Violated by inserting an empty fragment below a childless node; proved for every history of edits satisfying the preconditions."
  },
  {
   "property": "C15",
   "status": "proved",
   "theorems": [
    "Flo.C15_traverseDom_preorder"
   ],
   "note": "traverseDom visits exactly the preorder of the tree, once each."
  },
  {
   "property": "C16",
   "status": "partial",
   "theorems": [
    "Flo.C16_violated",
    "Flo.C16_traverseNode_subtree_partial",
    "Flo.C16_textContent_partial",
    "Flo.C16_traverseNode_leaf",
    "Flo.C16_textContent_leaf"
   ],
   "note": "Violated for a childless start node with a next sibling, where the walk runs to the end of the document (exactly characterised: C16_traverseNode_leaf, C16_textContent_leaf); proved for all other start nodes."
  },
  {
   "property": "C17",
   "status": "proved",
   "theorems": [
    "Flo.C17_appendDocumentNode"
   ],
   "note": "Exact effect on child lists and node contents for every reachable DOM, or the failure exit (C72 says when)."
  },
  {
   "property": "C18",
   "status": "proved",
   "theorems": [
    "Flo.C18_prependDocumentNode"
   ],
   "note": "As C17, in front."
  },
  {
   "property": "C19",
   "status": "proved",
   "theorems": [
    "Flo.C19_appendTextNode",
    "Flo.C19_prependTextNode"
   ],
   "note": "Both the merging and the non-merging case, exactly."
  },
  {
   "property": "C20",
   "status": "partial",
   "theorems": [
    "Flo.C20_violated",
    "Flo.C20_appendTextNode_returns_holder_partial",
    "Flo.C20_prependTextNode_returns_holder_partial",
    "Flo.C20_prependTextNode_exact_partial"
   ],
   "note": "Violated by prependTextNode after a merge, where it returns the removed node (exactly: C20_prependTextNode_exact_partial); proved for appendTextNode and the non-merging prepend."
  },
  {
   "property": "C21",
   "status": "proved",
   "theorems": [
    "Flo.C21_removeNode"
   ],
   "note": "Exact effect for every node that has a parent."
  },
  {
   "property": "C22",
   "status": "proved",
   "theorems": [
    "Flo.C22_removeChildren",
    "Flo.C22_setTextContent"
   ],
   "note": "Exact effect of removeChildren and setTextContent."
  },
  {
   "property": "C23",
   "status": "proved",
   "theorems": [
    "Flo.C23_appendHTML"
   ],
   "note": "For every fragment accepted by the parser; the inserted trees are those of the fragment parsed on its own."
  },
  {
   "property": "C24",
   "status": "proved",
   "theorems": [
    "Flo.C24_prependHTML"
   ],
   "note": "As C23, in front."
  },
  {
   "property": "C25",
   "status": "proved",
   "theorems": [
    "Flo.C25_replaceWithDocumentNode",
    "Flo.C25_replaceWithTextNode"
   ],
   "note": "Exact effect of replaceWithDocumentNode and of all three cases of replaceWithTextNode."
  },
  {
   "property": "C26",
   "status": "partial",
   "theorems": [
    "Flo.C26_violated",
    "Flo.C26_replaced_not_live_partial",
    "Flo.C26_exact_partial"
   ],
   "note": "Violated: queries still find a replaced node and its descendants; proved that they are not part of the tree any more. C26_exact_partial: such nodes are found by exactly the selectors that found them before."
  },
  {
   "property": "C27",
   "status": "partial",
   "theorems": [
    "Flo.C27_violated",
    "Flo.C27_replaceHTML_partial",
    "Flo.C27_replaceHTML_single_text_partial",
    "Flo.C27_single_text_exact_partial",
    "Flo.C27_two_texts_exact_partial"
   ],
   "note": "Violated in three situations (witnesses). Proved for fragments of several trees and for a single text; the violated situations are characterised exactly for all documents: first child (null dereference), last child (returns 0), two texts between two texts (a removed node is linked)."
  },
  {
   "property": "C28",
   "status": "partial",
   "theorems": [
    "Flo.C28_violated",
    "Flo.C28_dangling_violated",
    "Flo.C28_empty_fragment_parse_partial",
    "Flo.C28_exact_partial"
   ],
   "note": "Violated: the insertion functions use the result of an empty fragment. Proved: parsing such a fragment changes nothing; C28_exact_partial says for every document what the insertions do (a dangling child, or a read beyond the node table)."
  },
  {
   "property": "C29",
   "status": "proved",
   "theorems": [
    "Flo.C29_attribute_store",
    "Flo.C29_set_reports"
   ],
   "note": "Any sequence of attribute operations refines a per-node list store."
  },
  {
   "property": "C30",
   "status": "proved",
   "theorems": [
    "Flo.C30_other_nodes_untouched"
   ],
   "note": "Frame condition for every attribute operation."
  },
  {
   "property": "C31",
   "status": "partial",
   "theorems": [
    "Flo.C31_violated_union",
    "Flo.C31_violated_star",
    "Flo.C31_compound_partial",
    "Flo.C31_exact_partial"
   ],
   "note": "Violated by the union read on text nodes and by '*'; proved for compounds with a tag, attributes, flags and a trailing class/id under the stated condition on the punned value. C31_exact_partial gives the exact answer for every node without that condition."
  },
  {
   "property": "C32",
   "status": "partial",
   "theorems": [
    "Flo.C32_violated",
    "Flo.C32_combinators_partial",
    "Flo.C32_two_tags_partial",
    "Flo.C32_exact_partial"
   ],
   "note": "Violated by '*' after a combinator; proved for every chain of compounds with the four combinators. C32_exact_partial gives the exact answer without the condition on texts."
  },
  {
   "property": "C33",
   "status": "proved",
   "theorems": [
    "Flo.C33_querySelector_first"
   ],
   "note": "querySelector returns the first element of querySelectorAll's result, or nothing."
  },
  {
   "property": "C34",
   "status": "proved",
   "theorems": [
    "Flo.C34_total",
    "Flo.C34_errors",
    "Flo.C34_empty_compound"
   ],
   "note": "Every query string on every reachable DOM ends with a result, a defined error or the failure exit; never undefined behaviour."
  },
  {
   "property": "C35",
   "status": "proved",
   "theorems": [
    "Flo.C35_union"
   ],
   "note": "The result of a comma list is the union of the results, without duplicates."
  },
  {
   "property": "C36",
   "status": "partial",
   "theorems": [
    "Flo.C36_violated",
    "Flo.C36_parsed_partial",
    "Flo.C36_below_partial",
    "Flo.C36_removed_exact_partial",
    "Flo.C36_removed_tag_partial"
   ],
   "note": "Violated: attribute selectors ignore removal; proved for parsed documents and for results of combinators. C36_removed_exact_partial: exactly the selectors without a tag name that matched before still answer a removed node."
  },
  {
   "property": "C37",
   "status": "partial",
   "theorems": [
    "Flo.C37_violated",
    "Flo.C37_class_at_end_partial",
    "Flo.C37_exact_partial",
    "Flo.C37_finds_partial"
   ],
   "note": "Violated: a class selector ends the evaluation; proved for a class at the end of a compound, and exactly what the rest of such a query does (C37_exact_partial, C37_finds_partial: everything up to the next . or # is skipped, which then is one more condition on the same node)."
  },
  {
   "property": "C38",
   "status": "partial",
   "theorems": [
    "Flo.C38_violated_silent",
    "Flo.C38_violated",
    "Flo.C38_withQuery_partial",
    "Flo.C38_no_match_partial"
   ],
   "note": "Violated when the query matches nothing: then the edit is carried out with node 0 (C38_no_match_partial, exact). With a match exactly the edit on the first match, on a query error nothing. Such an edit also says nothing on stderr (C38_violated_silent)."
  },
  {
   "property": "C39",
   "status": "proved",
   "theorems": [
    "Flo.C39_reflexive",
    "Flo.C39_duplicate"
   ],
   "note": "equals d d, and equals d (duplicate d), for every reachable DOM without more than 64 attributes on a node."
  },
  {
   "property": "C40",
   "status": "proved",
   "theorems": [
    "Flo.C40_symmetric"
   ],
   "note": "Symmetric for all pairs of reachable DOMs (where it returns)."
  },
  {
   "property": "C41",
   "status": "partial",
   "theorems": [
    "Flo.C41_violated",
    "Flo.C41_sound_partial",
    "Flo.C41_complete_partial",
    "Flo.C41_exact_partial"
   ],
   "note": "Violated: pairs of attributes are compared as two separate sets. Proved: exactly when documents are reported equal (same tree, tags, texts, flags, and same sets of keys and values), and otherwise that the reported nodes are the first ones in document order that differ, with the right status."
  },
  {
   "property": "C42",
   "status": "partial",
   "theorems": [
    "Flo.C42_independent_partial",
    "Flo.C42_copy_partial",
    "Flo.C42_violated",
    "Flo.C42_slot_violated"
   ],
   "note": "Violated for DOMs with an empty table (capacity 0 buffer); proved for copies whose tables are not empty: writes to one never show in the other. C90-C92 prove the same of the whole duplicating code on a model of memory, for several DOMs in one arena."
  },
  {
   "property": "C43",
   "status": "proved",
   "theorems": [
    "Flo.C43_ordered",
    "Flo.C43_flush_delivers"
   ],
   "note": "For every sequence of log calls and every schedule of partial writes: the bytes written plus the buffer are the bytes logged."
  },
  {
   "property": "C44",
   "status": "proved",
   "theorems": [
    "Flo.C44_unsigned",
    "Flo.C44_signed",
    "Flo.C44_representation_unique"
   ],
   "note": "All 64-bit integers, signed and unsigned."
  },
  {
   "property": "C45",
   "status": "proved",
   "theorems": [
    "Flo.C45_blocks",
    "Flo.C45_failure",
    "Flo.C45_example",
    "Flo.C45_empty_block_outside",
    "Flo.C45_copyToArena"
   ],
   "note": "Blocks are aligned, inside, disjoint, zeroed; failure exactly when the room is short; empty requests may end outside (documented example)."
  },
  {
   "property": "C46",
   "status": "proved",
   "theorems": [
    "Flo.C46_contents",
    "Flo.C46_placement",
    "Flo.C46_push",
    "Flo.C46_progress",
    "Flo.C46_example"
   ],
   "note": "Contents survive any history of pushes and growth; growth fails only for lack of arena room."
  },
  {
   "property": "C47",
   "status": "proved",
   "theorems": [
    "Flo.C47_append",
    "Flo.C47_concatenation"
   ],
   "note": "Concatenation is preserved over growth."
  },
  {
   "property": "C48",
   "status": "proved",
   "theorems": [
    "Flo.C48_growing_set",
    "Flo.C48_any_exponent",
    "Flo.C48_reset"
   ],
   "note": "Any history of insertions and resets; C48_any_exponent: sets made with an exponent of the caller's choice (1 or more)."
  },
  {
   "property": "C49",
   "status": "proved",
   "theorems": [
    "Flo.C49_string_set"
   ],
   "note": "Contents and the exact condition of failure over any history."
  },
  {
   "property": "C50",
   "status": "proved",
   "theorems": [
    "Flo.C50_string_set",
    "Flo.C50_uint16_set",
    "Flo.C50_string_map",
    "Flo.C50_name_table"
   ],
   "note": "String set, 16-bit set, string map and the DOM's name table refine sets/maps over any history."
  },
  {
   "property": "C51",
   "status": "proved",
   "theorems": [
    "Flo.C51_live",
    "Flo.C51_alloc",
    "Flo.C51_free",
    "Flo.C51_example"
   ],
   "note": "Chunks handed out are disjoint and never handed out twice, over any history."
  },
  {
   "property": "C52",
   "status": "partial",
   "theorems": [
    "Flo.C52_absolute_exact_partial",
    "Flo.C52_mkdir_calls_partial",
    "Flo.C52_created_partial",
    "Flo.C52_example",
    "Flo.C52_violated"
   ],
   "note": "Violated for absolute paths, for which nothing at all is made (C52_absolute_exact_partial); proved: the sequence of mkdir calls, and that they create the directories of a relative path."
  },
  {
   "property": "C53",
   "status": "proved",
   "theorems": [
    "Flo.C53_equals",
    "Flo.C53_firstOccurenceOfFrom",
    "Flo.C53_firstOccurenceOf",
    "Flo.C53_lastOccurenceOf",
    "Flo.C53_containsChar",
    "Flo.C53_splitString",
    "Flo.C53_djb2",
    "Flo.C53_skeeto"
   ],
   "note": "Each helper equals its list definition for all strings."
  },
  {
   "property": "C54",
   "status": "partial",
   "theorems": [
    "Flo.C54_violated",
    "Flo.C54_print_partial",
    "Flo.C54_prints_partial",
    "Flo.C54_print_of_source_partial",
    "Flo.C54_every_input_partial"
   ],
   "note": "Violated: pairedness per name; proved what is printed for every reachable document, and the full property for consistent sources. See C74 for inconsistent ones. C54_every_input_partial: what is printed for every input."
  },
  {
   "property": "C55",
   "status": "partial",
   "theorems": [
    "Flo.C55_violated",
    "Flo.C55_texts_violated",
    "Flo.C55_print_parse_partial",
    "Flo.C55_exact_partial"
   ],
   "note": "Violated by unquoted flags before '/>' and by adjacent texts; proved for all printable documents. C55_exact_partial says for every input whether the printed text parses to the same trees."
  },
  {
   "property": "C56",
   "status": "proved",
   "theorems": [
    "Flo.C56_longer_tables_hang",
    "Flo.C56_tables_fit",
    "Flo.C56_searches_end",
    "Flo.C56_model_agrees"
   ],
   "note": "Table lengths stay below 2^16 in every reachable DOM (histories without empty-fragment insertion)."
  },
  {
   "property": "C57",
   "status": "partial",
   "theorems": [
    "Flo.C57_violated",
    "Flo.C57_prefix_partial",
    "Flo.C57_exact_partial"
   ],
   "note": "Violated: last digit dropped; proved exactly what is written."
  },
  {
   "property": "C58",
   "status": "proved",
   "theorems": [
    "Flo.C58_live",
    "Flo.C58_alloc",
    "Flo.C58_free",
    "Flo.C58_example"
   ],
   "note": "Blocks handed out are disjoint, inside, aligned headers, over any history."
  },
  {
   "property": "C59",
   "status": "proved",
   "theorems": [
    "Flo.C59_identifiers_last",
    "Flo.C59_fragment_identifiers_last"
   ],
   "note": "Documents up to 65533 bytes never exhaust identifiers."
  },
  {
   "property": "C60",
   "status": "partial",
   "theorems": [
    "Flo.C60_delivery_exact_partial",
    "Flo.C60_violated",
    "Flo.C60_violated_newline",
    "Flo.C60_nothing_lost_partial",
    "Flo.C60_flush_reports_partial",
    "Flo.C60_newline_exact_partial"
   ],
   "note": "Violated after write errors; proved that nothing is lost, that flush reports the error, exactly when a byte is stored behind the buffer (C60_newline_exact_partial), and exactly which texts a failing file can receive (C60_delivery_exact_partial)."
  },
  {
   "property": "C61",
   "status": "partial",
   "theorems": [
    "Flo.C61_violated",
    "Flo.C61_nonnegative_partial",
    "Flo.C61_exact_partial"
   ],
   "note": "Violated for negative values; proved exactly what is written for every int."
  },
  {
   "property": "C62",
   "status": "proved",
   "theorems": [
    "Flo.C62_six_decimals",
    "Flo.C62_text"
   ],
   "note": "The arithmetic that splits the number into integral part and millionths is the subject of C99; here everything after it."
  },
  {
   "property": "C63",
   "status": "partial",
   "theorems": [
    "Flo.C63_parent_exact_partial",
    "Flo.C63_removeChildren_exact_partial",
    "Flo.C63_parsed_partial",
    "Flo.C63_detached_partial",
    "Flo.C63_removeChildren_partial",
    "Flo.C63_violated"
   ],
   "note": "Violated for getParent; proved for children and siblings, the full property for parsed documents (C63_parsed_partial), and exactly which removed nodes keep their parent otherwise (C63_parent_exact_partial, C63_removeChildren_exact_partial: those recorded twice)."
  },
  {
   "property": "C64",
   "status": "partial",
   "theorems": [
    "Flo.C64_reset_all_live_partial",
    "Flo.C64_violated",
    "Flo.C64_reset_exact_partial"
   ],
   "note": "Violated when chunks are free; proved when all chunks are live, and exactly what happens otherwise (C64_reset_exact_partial: a chunk is handed out twice and the pool never runs out)."
  },
  {
   "property": "C65",
   "status": "partial",
   "theorems": [
    "Flo.C65_refused_partial",
    "Flo.C65_violated",
    "Flo.C65_exact_partial"
   ],
   "note": "Violated by overflow of size*count; proved without overflow, and C65_exact_partial: the request counts its product modulo 2^64."
  },
  {
   "property": "C66",
   "status": "partial",
   "theorems": [
    "Flo.C66_append",
    "Flo.C66_copy_partial",
    "Flo.C66_violated",
    "Flo.C66_copy_exact_partial"
   ],
   "note": "Violated by the terminator; proved for append, for copy with one spare byte, and exactly what a copy writes (C66_copy_exact_partial)."
  },
  {
   "property": "C67",
   "status": "partial",
   "theorems": [
    "Flo.C67_existing_key_partial",
    "Flo.C67_new_key",
    "Flo.C67_violated"
   ],
   "note": "Violated for new keys; proved for existing keys."
  },
  {
   "property": "C68",
   "status": "proved",
   "theorems": [
    "Flo.C68_hash16_injective",
    "Flo.C68_short_paths"
   ],
   "note": "At most 9 nodes per insertion, for every set of 16-bit keys."
  },
  {
   "property": "C69",
   "status": "partial",
   "theorems": [
    "Flo.C69_read_partial",
    "Flo.C69_cannot_open",
    "Flo.C69_violated",
    "Flo.C69_violated_arena",
    "Flo.C69_unseekable_exact_partial"
   ],
   "note": "Violated for unseekable files; proved for regular reads, including short reads and errors, and exactly what happens for unseekable files (C69_unseekable_exact_partial)."
  },
  {
   "property": "C70",
   "status": "proved",
   "theorems": [
    "Flo.C70_create",
    "Flo.C70_edits",
    "Flo.C70_failure"
   ],
   "note": "The file variants equal reading the file and calling the string variant."
  },
  {
   "property": "C71",
   "status": "partial",
   "theorems": [
    "Flo.C71_exact_partial",
    "Flo.C71_lost_partial",
    "Flo.C71_write_partial",
    "Flo.C71_violated",
    "Flo.C71_violated_name",
    "Flo.C71_print"
   ],
   "note": "Violated: write errors are not reported; proved: what is written, for every schedule of partial writes, when no error occurs; and for every schedule with errors that success is reported and exactly which contents the file can get (C71_exact_partial, C71_lost_partial)."
  },
  {
   "property": "C72",
   "status": "proved",
   "theorems": [
    "Flo.C72_edits_succeed",
    "Flo.C72_sessions_last",
    "Flo.C72_sessions_succeed"
   ],
   "note": "Edits and whole sessions succeed while identifiers last; the cost of each edit is explicit."
  },
  {
   "property": "C73",
   "status": "partial",
   "theorems": [
    "Flo.C73_exact_partial",
    "Flo.C73_monotone_partial",
    "Flo.C73_refused_partial",
    "Flo.C73_violated_forever",
    "Flo.C73_fresh_grants_partial",
    "Flo.C73_violated",
    "Flo.C73_violated_refree",
    "Flo.C73_refree_partial",
    "Flo.C73_equal_requests_partial",
    "Flo.C73_half_full_partial"
   ],
   "note": "Violated: coalescing is incomplete, the search skips the last block, and blocks that are not buddies are joined, after which a completely free memory is fragmented for good (C73_violated_forever). Proved: exactly when a request is granted, after any history (C73_exact_partial, a machine on lists of blocks); smaller requests are granted if larger ones are; after a refusal no block but the last could have served it; a fresh allocator grants everything that fits; k equal requests; a freed block is granted again if a block in use lies behind it."
  },
  {
   "property": "C74",
   "status": "proved",
   "theorems": [
    "Flo.C74_parsed",
    "Flo.C74_kept",
    "Flo.C74_edit",
    "Flo.C74_duplicate",
    "Flo.C74_written",
    "Flo.C74_print",
    "Flo.C74_every_fragment",
    "Flo.C74_every_input"
   ],
   "note": "Registry after parsing and after every edit, for all names; printing of inconsistent sources."
  },
  {
   "property": "C75",
   "status": "proved",
   "theorems": [
    "Flo.C75_buddy_create",
    "Flo.C75_buddy_alloc",
    "Flo.C75_buddy_free",
    "Flo.C75_pool_create",
    "Flo.C75_pool_alloc",
    "Flo.C75_pool_free"
   ],
   "note": "Noninterference with everything outside the managed memory, for both allocators and every history. flo_freePool is not covered (C64)."
  },
  {
   "property": "C76",
   "status": "proved",
   "theorems": [
    "Flo.C76_parse_broken",
    "Flo.C76_parse_broken_any_size",
    "Flo.C76_mismatched_end_tag"
   ],
   "note": "Mutual induction over a grammar of sources with errors; the resulting document is given explicitly. All other errors are covered by C93."
  },
  {
   "property": "C77",
   "status": "proved",
   "theorems": [
    "Flo.C77_names_kept",
    "Flo.C77_query_kept"
   ],
   "note": "Proved for every mutating call, including HTML insertion, and every query string."
  },
  {
   "property": "C78",
   "status": "proved",
   "theorems": [
    "Flo.C78_status_report",
    "Flo.C78_name_tables"
   ],
   "note": "Numbers in the report are assumed to fit their types (Printable: names shorter than 4 GiB, attribute and link rows fewer than 2^63)."
  },
  {
   "property": "C79",
   "status": "partial",
   "theorems": [
    "Flo.C79_violated",
    "Flo.C79_violated_children",
    "Flo.C79_report_partial",
    "Flo.C79_after_equals_partial"
   ],
   "note": "Violated: the tag of the first node is printed for both, and nodes that differ in the number of children are reported as not different. Proved: the exact text of the report for every pair of nodes, when the failure handler is taken (more than 64 attributes), and when the report after a comparison says that nothing differs."
  },
  {
   "property": "C80",
   "status": "partial",
   "theorems": [
    "Flo.C80_violated",
    "Flo.C80_returns_partial",
    "Flo.C80_exact_partial",
    "Flo.C80_same_output"
   ],
   "note": "Violated: padding and repeating return 1, so the count of a double is also wrong. Proved: output and return values of every sequence of calls, and exactly which calls return the number of characters."
  },
  {
   "property": "C81",
   "status": "proved",
   "theorems": [
    "Flo.C81_array",
    "Flo.C81_first"
   ],
   "note": "The DOM is a value, the sets, the result array and the arena are bytes at addresses. The 16-byte result header of querySelector is allocated but its stores are not modelled."
  },
  {
   "property": "C82",
   "status": "proved",
   "theorems": [
    "Flo.C82_room",
    "Flo.C82_room_first",
    "Flo.C82_least"
   ],
   "note": "The bound is sufficient, not tight."
  },
  {
   "property": "C83",
   "status": "proved",
   "theorems": [
    "Flo.C83_parse_in_memory",
    "Flo.C83_jump_in_memory"
   ],
   "note": "Model DomMem (all tables, texts and map nodes are bytes in the arena) follows createDom. Assumes 0 < arena address, addresses below 2^62, source outside the free part. Says nothing where createDom itself has undefined behaviour (C02)."
  },
  {
   "property": "C84",
   "status": "proved",
   "theorems": [
    "Flo.C84_memory_is_linear",
    "Flo.C84_parse_succeeds"
   ],
   "note": "Upper bound, not claimed tight."
  },
  {
   "property": "C85",
   "status": "proved",
   "theorems": [
    "Flo.C85_query",
    "Flo.C85_query_first",
    "Flo.C85_silent_iff",
    "Flo.C85_query_edit",
    "Flo.C85_refused",
    "Flo.C85_create_from_file",
    "Flo.C85_edit_from_file",
    "Flo.C85_write"
   ],
   "note": "Standard error only; stdout reports are C78, C79."
  },
  {
   "property": "C86",
   "status": "proved",
   "theorems": [
    "Flo.C86_status_texts",
    "Flo.C86_hash_status"
   ],
   "note": "Every integer is covered, also those that are no codes."
  },
  {
   "property": "C87",
   "status": "proved",
   "theorems": [
    "Flo.C87_streams"
   ],
   "note": "Assumes writes without errors; with errors see C60."
  },
  {
   "property": "C88",
   "status": "proved",
   "theorems": [
    "Flo.C88_history",
    "Flo.C88_edit_in_memory",
    "Flo.C88_jump_in_memory",
    "Flo.C88_edits_are_safe"
   ],
   "note": "Model EditMem follows Edit on the bytes of the arena. Assumes 16-bit ids, string arguments in memory the caller owns, 0 < arena address and addresses below 2^62. For several DOMs and duplicates see C90-C92."
  },
  {
   "property": "C89",
   "status": "proved",
   "theorems": [
    "Flo.C89_memory_is_linear",
    "Flo.C89_edits_succeed"
   ],
   "note": "Upper bound, not claimed tight."
  },
  {
   "property": "C90",
   "status": "proved",
   "theorems": [
    "Flo.C90_duplicate_in_memory",
    "Flo.C90_duplicate_is_the_same",
    "Flo.C90_memory_is_linear"
   ],
   "note": "Model DupMem follows duplicateDom on the bytes of the arena. Same assumptions on addresses as C83."
  },
  {
   "property": "C91",
   "status": "proved",
   "theorems": [
    "Flo.C91_all_doms_in_memory",
    "Flo.C91_edit_one",
    "Flo.C91_jump_in_memory",
    "Flo.C91_edits_are_safe",
    "Flo.C91_parse_beside",
    "Flo.C91_query_beside",
    "Flo.C91_edits_succeed",
    "Flo.C91_parse_memory"
   ],
   "note": "Edits only of DOMs whose empty tables have no memory (Growable: every parsed and edited DOM; duplicates exactly by C92_duplicate_growable_iff)."
  },
  {
   "property": "C92",
   "status": "partial",
   "theorems": [
    "Flo.C92_duplicate_growable_iff",
    "Flo.C92_edit_duplicate_partial",
    "Flo.C92_violated"
   ],
   "note": "Violated: FLO_COPY_DYNAMIC_ARRAY gives an empty table an address and capacity 0, and flo_grow doubles 0; the next entry is written to memory that was not reserved. Partial: proved for duplicates of DOMs whose five tables all have entries."
  },
  {
   "property": "C93",
   "status": "proved",
   "theorems": [
    "Flo.C93_every_input",
    "Flo.C93_any_size",
    "Flo.C93_returned",
    "Flo.C93_same_meaning"
   ],
   "note": "The reference reader is Spec/Reference.lean; nothing in it refers to the parser. C93_every_input is total functional correctness of createDom up to 65533 bytes, C93_any_size beyond."
  },
  {
   "property": "C94",
   "status": "proved",
   "theorems": [
    "Flo.C94_append",
    "Flo.C94_prepend",
    "Flo.C94_replace",
    "Flo.C94_replace_single_text",
    "Flo.C94_replace_single_text_ends",
    "Flo.C94_replace_two_texts",
    "Flo.C94_nothing",
    "Flo.C94_too_deep",
    "Flo.C94_outside"
   ],
   "note": "For every fragment with identifiers left for its bytes. The situations in which the insertion functions misbehave (C27, C28, C02) are included with what happens there."
  },
  {
   "property": "C95",
   "status": "proved",
   "theorems": [
    "Flo.C95_load",
    "Flo.C95_step",
    "Flo.C95_print",
    "Flo.C95_session",
    "Flo.C95_duplicate",
    "Flo.C95_one_page"
   ],
   "note": "Strings that are refused because they nest too deeply are not operations of the machine here; C106 adds them."
  },
  {
   "property": "C96",
   "status": "proved",
   "theorems": [
    "Flo.C96_undo",
    "Flo.C96_no_trace"
   ],
   "note": "On the page of C95; undo of one element (a single text is merged, several trees need several removals)."
  },
  {
   "property": "C97",
   "status": "proved",
   "theorems": [
    "Flo.C97_attributes_commute"
   ],
   "note": "On the page of C95."
  },
  {
   "property": "C98",
   "status": "proved",
   "theorems": [
    "Flo.C98_print_is_local"
   ],
   "note": "On the page of C95; an element that was registered without content is printed without it (C54)."
  },
  {
   "property": "C99",
   "status": "partial",
   "theorems": [
    "Flo.C99_violated",
    "Flo.C99_close_partial",
    "Flo.C99_infinite_partial",
    "Flo.C99_rounds_partial",
    "Flo.C99_rounding_is_nearest"
   ],
   "note": "Violated for NaN (undefined conversion to an integer); proved for all other values. IEEE 754 binary64, each operation rounded once to nearest even; C99_rounding_is_nearest checks the rounding of the model against that description."
  },
  {
   "property": "C100",
   "status": "proved",
   "theorems": [
    "Flo.C100_only_elements",
    "Flo.C100_condition"
   ],
   "note": "Proved for histories whose attribute calls name elements (Proper); C100_condition shows that the condition is needed."
  },
  {
   "property": "C101",
   "status": "proved",
   "theorems": [
    "Flo.C101_query",
    "Flo.C101_answered",
    "Flo.C101_parsed",
    "Flo.C101_session"
   ],
   "note": "Only the part of the answer on the page is characterised after edits: nodes that were removed or replaced can be answered too (C26, C31). PunFree as in C31/C32. Queries with at most eight conditions per selector; more are refused (C35)."
  },
  {
   "property": "C102",
   "status": "proved",
   "theorems": [
    "Flo.C102_navigation",
    "Flo.C102_walks",
    "Flo.C102_attributes",
    "Flo.C102_session"
   ],
   "note": "The walk and text content of a childless node with a next sibling are characterised as they are (the C16 violation): the rest of the page. Attribute readers for histories whose attribute calls name elements (C100)."
  },
  {
   "property": "C103",
   "status": "proved",
   "theorems": [
    "Flo.C103_compare",
    "Flo.C103_same",
    "Flo.C103_differ"
   ],
   "note": "Label.Like is what the code compares: keys and values as separate sets (the C41 violation). For histories whose attribute calls name elements (C100)."
  },
  {
   "property": "C104",
   "status": "proved",
   "theorems": [
    "Flo.C104_value",
    "Flo.C104_session"
   ],
   "note": "On the page of C95."
  },
  {
   "property": "C105",
   "status": "proved",
   "theorems": [
    "Flo.C105_session"
   ],
   "note": "Strings of the calls outside of the arena (strings inside a part of the arena the program has used are covered call by call by C88). Calls allowed on the page, as in C95."
  },
  {
   "property": "C106",
   "status": "proved",
   "theorems": [
    "Flo.C106_call",
    "Flo.C106_session",
    "Flo.C106_memory"
   ],
   "note": "Sessions of C95 with refused strings added. Fragments without any tree, and the two clashing replacements of C27, stay excluded (the code goes wrong there)."
  },
  {
   "property": "C107",
   "status": "proved",
   "theorems": [
    "Flo.C107_session_fits"
   ],
   "note": "The bound is explicit (Spec/SessionRoom.lean) and quadratic in the number of calls times the size of the tables, because the code can record every sibling again in each call (C108) and doubles its tables in a bump arena without reusing the old block. It is sufficient, not tight."
  },
  {
   "property": "C108",
   "status": "partial",
   "theorems": [
    "Flo.C108_append",
    "Flo.C108_prepend_partial",
    "Flo.C108_appends",
    "Flo.C108_prepends_partial",
    "Flo.C108_violated"
   ],
   "note": "Appending: one row, proved for every reachable DOM. Prepending: the exact count, which is not one (C108_violated for any number of children that fits). Stated for elements; texts and HTML strings use the same function."
  },
  {
   "property": "C109",
   "status": "proved",
   "theorems": [
    "Flo.C109_selector",
    "Flo.C109_edit",
    "Flo.C109_session"
   ],
   "note": "What happens when the query selects nothing is C38 (there the code edits node 0); C109_selector lists all outcomes. Stated with the edit functions of the model without the messages; with the messages the call does and returns the same (C85)."
  },
  {
   "property": "C110",
   "status": "proved",
   "theorems": [
    "Flo.C110_machine",
    "Flo.C110_next",
    "Flo.C110_same_requests"
   ],
   "note": "Full functional correctness of the allocator against the list machine in Spec/BlockList.lean, for every history; answers and block list."
  },
  {
   "property": "C111",
   "status": "partial",
   "theorems": [
    "Flo.C111_exact_partial",
    "Flo.C111_count_partial",
    "Flo.C111_quadratic_partial",
    "Flo.C111_violated"
   ],
   "note": "Violated: because the child subscript is hash << 62 (C13), each table is a linked list in the order of the identifiers. Proved exactly: which names a lookup compares, in every reachable document; their number; the quadratic total."
  },
  {
   "property": "C112",
   "status": "partial",
   "theorems": [
    "Flo.C112_parse_partial",
    "Flo.C112_exact_partial",
    "Flo.C112_print_partial",
    "Flo.C112_call_partial",
    "Flo.C112_shown_partial",
    "Flo.C112_session_partial",
    "Flo.C112_violated"
   ],
   "note": "Violated by <a b=\"\u00e9: a value whose closing quote is missing loses the last byte of the source, half a character. Proved for sources and fragments that end in an ASCII character or are empty (parse, print, every call, whole sessions), and for all sources that this is the only way (C112_exact_partial)."
  },
  {
   "property": "C113",
   "status": "proved",
   "theorems": [
    "Flo.C113_parse",
    "Flo.C113_print",
    "Flo.C113_calls",
    "Flo.C113_session",
    "Flo.C113_query",
    "Flo.C113_query_parsed",
    "Flo.C113_encodings"
   ],
   "note": "Proved by showing that the reference reader, the page operations and the printer commute with the renaming, and C93/C95/C106. C113_encodings: any injective renaming that fixes ASCII qualifies."
  },
  {
   "property": "C114",
   "status": "proved",
   "theorems": [
    "Flo.C114_same_page",
    "Flo.C114_reads",
    "Flo.C114_attributes",
    "Flo.C114_queries",
    "Flo.C114_selector",
    "Flo.C114_compare"
   ],
   "note": "Values are determined by the pages before and after a call (gives_det), pages by C106, readers by C102. Replacing attribute values on texts is excluded: texts can hold attributes that no page shows (C100_condition)."
  },
  {
   "property": "C115",
   "status": "partial",
   "theorems": [
    "Flo.C115_page_partial",
    "Flo.C115_call_partial",
    "Flo.C115_session_partial",
    "Flo.C115_violated"
   ],
   "note": "Missing because the code violates it: strings with markup in them (C115_violated: an appended text becomes an element, a value becomes a second attribute). Proved for harmless strings: the printed page is Printable once neighbouring texts are joined, so it is read back by the reparse theorem; harmless strings in, harmless pages out, through every editing call and session."
  },
  {
   "property": "C116",
   "status": "proved",
   "theorems": [
    "Flo.C116_copy",
    "Flo.C116_content",
    "Flo.C116_interchangeable"
   ],
   "note": "C116_copy: the three HTML functions with the printed text of a page; C116_content: joined texts leave elements, attributes and text as they are; C116_interchangeable: structure or text against its HTML. A text in place of a first child with a text behind it is excluded (undefined behaviour, C27)."
  },
  {
   "property": "C117",
   "status": "proved",
   "theorems": [
    "Flo.C117_outcome",
    "Flo.C117_parse",
    "Flo.C117_refused",
    "Flo.C117_fragment",
    "Flo.C117_append"
   ],
   "note": "C117_outcome / C117_parse / C117_refused: documents; C117_fragment, C117_append: HTML strings. The other input is any string; if it ends in an open quote (a read outside the input, C02), the whole has no document either."
  },
  {
   "property": "C118",
   "status": "proved",
   "theorems": [
    "Flo.C118_last",
    "Flo.C118_last_row",
    "Flo.C118_rows",
    "Flo.C118_root"
   ],
   "note": "C118_last: getLastNext; C118_last_row: getLastNextNode; C118_rows: the other row-returning functions; C118_root: the root. A row is given by its index in the model's table. Reachable as in C14 (no empty fragments)."
  },
  {
   "property": "C119",
   "status": "partial",
   "theorems": [
    "Flo.C119_spends",
    "Flo.C119_lifetime",
    "Flo.C119_violated"
   ],
   "note": "Violated: C119_violated gives the exact round at which the failure exit is taken, for any number of rounds. C119_spends and C119_lifetime: what each call spends, and the bound that follows for every session. C72 is the counterpart: as long as identifiers last, edits succeed."
  },
  {
   "property": "C120",
   "status": "proved",
   "theorems": [
    "Flo.C120_congruence",
    "Flo.C120_transitive"
   ],
   "note": "With C39 and C40: equality is an equivalence relation on reachable DOMs (as far as the failure handler is not taken), though not the intended one (C41)."
  },
  {
   "property": "C121",
   "status": "proved",
   "theorems": [
    "Flo.C121_last_write",
    "Flo.C121_apart",
    "Flo.C121_new_key",
    "Flo.C121_no_change"
   ],
   "note": "Complements C97 (attribute calls against all other edits) for calls on the same node."
  },
  {
   "property": "C122",
   "status": "partial",
   "theorems": [
    "Flo.C122_injective_partial",
    "Flo.C122_equal_partial",
    "Flo.C122_violated"
   ],
   "note": "Partial: C122_violated shows a text with markup that prints like an element while the comparison tells the two apart. Proved for pages of harmless strings whose forms fit (as in C115)."
  },
  {
   "property": "C123",
   "status": "proved",
   "theorems": [
    "Flo.C123_only_child",
    "Flo.C123_set_text",
    "Flo.C123_remove_twice",
    "Flo.C123_last_text",
    "Flo.C123_replace",
    "Flo.C123_add_text"
   ],
   "note": "Complements C96 and C97 (laws between calls)."
  },
  {
   "property": "C124",
   "status": "proved",
   "theorems": [
    "Flo.C124_wider",
    "Flo.C124_same",
    "Flo.C124_intersection",
    "Flo.C124_chain"
   ],
   "note": "Beside C35 (comma is union). With the exact answers of C31/C32, hence without an assumption about the bytes read as tags of texts."
  },
  {
   "property": "C125",
   "status": "partial",
   "theorems": [
    "Flo.C125_program",
    "Flo.C125_remove",
    "Flo.C125_attributes",
    "Flo.C125_replace",
    "Flo.C125_append_partial",
    "Flo.C125_prepend_partial",
    "Flo.C125_setText_partial",
    "Flo.C125_violated"
   ],
   "note": "Holds for attributes, texts, tags and for replacing by an element or a text (C125_attributes, C125_replace); removing never fails (C125_remove); the programs are the functions of the other models (C125_program). For appending: as before, or as after success but without the row of the new node in the table of parents. Violated otherwise (C125_violated): a failing prepend loses all old children of the parent, a failing setTextContent leaves the node empty, a failing append leaves a child without parent, a failing replacement by HTML loses the following siblings. Failing prepends of one element or text: exactly three outcomes (C125_prepend_partial: unchanged; as after success but for rows of the table of parents; the old children of that one node lost). Failing setText: the children are gone, otherwise as after the removal or as after success but for parents (C125_setText_partial). Missing: the exact outcomes of appendHTML/prependHTML/replaceHTML after the fragment was parsed (while it is parsed: C126)."
  },
  {
   "property": "C126",
   "status": "proved",
   "theorems": [
    "Flo.C126_fragment",
    "Flo.C126_calls"
   ],
   "note": "C126_fragment for the parse, C126_calls for the three calls that take HTML."
  },
  {
   "property": "C127",
   "status": "partial",
   "theorems": [
    "Flo.C127_again_partial",
    "Flo.C127_whole",
    "Flo.C127_violated"
   ],
   "note": "Violated (C127_violated): a new name takes two allocations, first in the map that gives it a number, then in the table of names; when the second fails, the number has no name. Calling again finds the number and succeeds, and printing then reads outside the table; names added later stand one place off, so a paragraph with the attribute title is printed with class. C127_again_partial: if no number is without its name, calling again does exactly what the first call would have done."
  },
  {
   "property": "C128",
   "status": "partial",
   "theorems": [
    "Flo.C128_program",
    "Flo.C128_kept",
    "Flo.C128_again_partial",
    "Flo.C128_violated"
   ],
   "note": "Elements, arena and memory are kept (C128_kept), and arrays that have a buffer can be used again (C128_again_partial). Violated for every array that has none yet (C128_violated): flo_grow writes the capacity 1 before it asks for the memory, so the next push takes the slot of the NULL pointer; flo_addRawData does the same with the length of the data. The attribute tables of a document without attributes, and the link tables of an empty document, are such arrays. Tables are lists in Crash.lean (C125-C127), which therefore do not show this."
  },
  {
   "property": "C129",
   "status": "proved",
   "theorems": [
    "Flo.C129_prints"
   ],
   "note": "All edits, at every failure point (C129_prints). It speaks of one failing call: after a second call on the document left, printing may read outside a table (C127_violated)."
  },
  {
   "property": "C130",
   "status": "proved",
   "theorems": [
    "Flo.C130_append",
    "Flo.C130_prepend",
    "Flo.C130_replace",
    "Flo.C130_setText",
    "Flo.C130_others"
   ],
   "note": "C130_append, C130_prepend, C130_replace, C130_setText, C130_others (the remaining edits change no old kid list at all, even when they fail). The losses the statement allows do occur (the examples in Props/CrashPrint.lean): a failing prepend can lose all old children, a failing replacement the replaced node and every sibling behind it."
  },
  {
   "property": "C131",
   "status": "partial",
   "theorems": [
    "Flo.C131_one_node",
    "Flo.C131_replace_partial",
    "Flo.C131_violated"
   ],
   "note": "C131_one_node: attributes, texts and tags, for every DOM, every query text and whatever is read through the union; also the refusals are the same, except that an unknown name may have become known. C131_replace_partial: replacing by an element or a text; every answered query is answered, and with the same old nodes, but also with the element the failed call has made. C131_violated: appending a fragment. Missing: what the answers are in the middle of linking."
  },
  {
   "property": "C132",
   "status": "proved",
   "theorems": [
    "Flo.C132_children",
    "Flo.C132_element",
    "Flo.C132_labels",
    "Flo.C132_forms",
    "Flo.C132_removals",
    "Flo.C132_removal",
    "Flo.C132_removal_label",
    "Flo.C132_neighbour"
   ],
   "note": "C132_children, C132_element, C132_labels: the trees and the print; C132_removals, C132_removal, C132_removal_label: the same page with the same numbers; C132_forms: two forms of a new name print differently in the two orders; C132_neighbour: at the parent of a removed node the order matters (texts are merged). Within 65533 bytes, nodes and names, as in C95."
  },
  {
   "property": "C133",
   "status": "proved",
   "theorems": [
    "Flo.C133_unmentioned"
   ],
   "note": "C133_unmentioned. Nodes that are no longer in the document can be among the answers before and after (C36), and are not spoken of; texts as in C101 (PunFree)."
  },
  {
   "property": "C134",
   "status": "proved",
   "theorems": [
    "Flo.C134_navigation",
    "Flo.C134_content"
   ],
   "note": "C134_navigation, C134_content. Room as in C95. The text content of a childless node with a next sibling goes on through the document (C16); it, too, is as it was."
  }
 ]
}