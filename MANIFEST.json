{
 "claims": [
  {
   "property": "C01",
   "status": "partial",
   "theorems": [
    "Kdl.C01_document_lossless_partial",
    "Kdl.C01_violated_annotation",
    "Kdl.C01_violated_children",
    "Kdl.C01_violated_trailing_space",
    "Kdl.C01_violated",
    "Kdl.C01_exact",
    "Kdl.C01_exact_texts",
    "Kdl.C01_exact_example",
    "Kdl.C01_exact_example_not"
   ],
   "note": "Violated by space or comments in or after a type annotation and by space between a closing brace and what follows (C01_violated_*). Decided exactly (C01_exact): printed as it was if and only if the text has no such space, described by the grammar of Spec/Snug.lean."
  },
  {
   "property": "C02",
   "status": "proved",
   "theorems": [
    "Kdl.C02_entry_lossless"
   ],
   "note": "All accepted texts."
  },
  {
   "property": "C03",
   "status": "proved",
   "theorems": [
    "Kdl.C03_identifier_lossless"
   ],
   "note": "All accepted texts."
  },
  {
   "property": "C04",
   "status": "partial",
   "theorems": [
    "Kdl.C04_node_lossless_partial",
    "Kdl.C04_violated",
    "Kdl.C04_exact",
    "Kdl.C04_exact_example"
   ],
   "note": "Violated like C01 (C04_violated). Decided exactly (C04_exact), as C01."
  },
  {
   "property": "C05",
   "status": "proved",
   "theorems": [
    "Kdl.C05_document_subsequence",
    "Kdl.C05_node_subsequence"
   ],
   "note": "All accepted texts, documents and nodes."
  },
  {
   "property": "C06",
   "status": "proved",
   "theorems": [
    "Kdl.C06_parse_total",
    "Kdl.C06_ok_or_err",
    "Kdl.C06_recovering"
   ],
   "note": "For the strict parser (the run up to the first fatal error) and, in C06_recovering, for the parser with error recovery and every recovery behaviour. Memory exhaustion and stack overflow are outside the model."
  },
  {
   "property": "C07",
   "status": "proved",
   "theorems": [
    "Kdl.C07_document_integers",
    "Kdl.C07_entry_integers",
    "Kdl.C07_literal_accepted",
    "Kdl.C07_literal_rejected",
    "Kdl.C07_literal_unique"
   ],
   "note": "Every integer in a parsed document or entry is the mathematical value of its literal; every literal in range is accepted with that value and every literal out of range is rejected."
  },
  {
   "property": "C08",
   "status": "partial",
   "theorems": [
    "Kdl.C08_value_partial",
    "Kdl.C08_violated_min",
    "Kdl.C08_violated_newline",
    "Kdl.C08_violated_number"
   ],
   "note": "Exact characterisation: a value is read back (NaN as the standard NaN, equal for the library) iff it is writable; the smallest i128, strings containing a code point the printer does not escape and strings like -.5 are printed as texts that are rejected (witnesses proved). Float texts go through LawfulFloatIO, which rustFloatIO_lawful proves for the modelled std printing and parsing of f64."
  },
  {
   "property": "C09",
   "status": "partial",
   "theorems": [
    "Kdl.C09_identifier_partial",
    "Kdl.C09_violated_newline",
    "Kdl.C09_violated_number"
   ],
   "note": "Exact characterisation: the printed identifier is read back iff the string is writable, and rejected otherwise; witnesses for U+2028 and +.5."
  },
  {
   "property": "C10",
   "status": "partial",
   "theorems": [
    "Kdl.C10_exact",
    "Kdl.C10_built_partial",
    "Kdl.C10_violated"
   ],
   "note": "C10_exact: a built document gives an accepted text with the same data exactly if its strings and integers are writable, and a rejected text otherwise (C10_violated: a node named -.5). Assumes LawfulFloatIO."
  },
  {
   "property": "C11",
   "status": "partial",
   "theorems": [
    "Kdl.C11_data_partial",
    "Kdl.C11_reparse_partial",
    "Kdl.C11_violated",
    "Kdl.C11_exact",
    "Kdl.C11_rejected",
    "Kdl.C11_accepted",
    "Kdl.C11_exact_example",
    "Kdl.C11_rejected_example"
   ],
   "note": "C11_violated: the text printed for an accepted document may be rejected. Decided exactly (C11_exact, C11_rejected): it is accepted with the same data if any two nodes in a row are parted by the recorded terminator or by a line break recorded in front of the second one, and rejected otherwise. It is never accepted with other data (C11_accepted)."
  },
  {
   "property": "C12",
   "status": "proved",
   "theorems": [
    "Kdl.C12_autoformat_keeps_data",
    "Kdl.C12_autoformat_node_keeps_data",
    "Kdl.C12_shorthands"
   ],
   "note": "Every configuration, documents and nodes, by mutual induction."
  },
  {
   "property": "C13",
   "status": "partial",
   "theorems": [
    "Kdl.C13_autoformat_idempotent_partial",
    "Kdl.C13_violated_unformatted",
    "Kdl.C13_violated_kept",
    "Kdl.C13_violated_carriage_return",
    "Kdl.C13_exact",
    "Kdl.C13_node_exact",
    "Kdl.C13_parsed",
    "Kdl.C13_violated_indent",
    "Kdl.C13_violated_parsed"
   ],
   "note": "Violated (C13_violated_*): nodes without a format record, kept entries, doubled carriage returns before a line feed. C13_exact and C13_node_exact decide it for every document and every white-space indent: idempotent if and only if none of these three occurs. C13_parsed: it holds for every accepted text without two carriage returns before a line feed. Indents that are not white space violate it too (C13_violated_indent)."
  },
  {
   "property": "C14",
   "status": "partial",
   "theorems": [
    "Kdl.C14_lines_partial",
    "Kdl.C14_comments_partial",
    "Kdl.C14_text_partial",
    "Kdl.C14_violated_bom",
    "Kdl.C14_no_comments_exact",
    "Kdl.C14_no_comments_partial",
    "Kdl.C14_built_exact",
    "Kdl.C14_built_partial",
    "Kdl.C14_violated_slashdash",
    "Kdl.C14_violated_string"
   ],
   "note": "C14_no_comments_exact and C14_built_exact: a parsed document formatted without comments, and a built document formatted in either way, gives an accepted text with the same data exactly if its strings and integers can be written, and a rejected text otherwise. Also proved for every parsed document formatted with comments whose strings are writable and whose recorded texts contain no slashdash, or (C14_lines_partial, text without byte order mark) whose slashdashed nodes stand on lines of their own and whose slashdashed entries and blocks have no carriage return near the terminator. Any white-space indent and level. Counterexamples: C14_violated_slashdash, C14_violated_string, C14_violated_bom. Missing: texts with slashdashed nodes over several lines that happen to survive formatting."
  },
  {
   "property": "C15",
   "status": "partial",
   "theorems": [
    "Kdl.C15_between_nodes_partial",
    "Kdl.C15_node_partial",
    "Kdl.C15_example",
    "Kdl.C15_violated_line",
    "Kdl.C15_violated_entry",
    "Kdl.C15_violated_block",
    "Kdl.C15_rest_lost",
    "Kdl.C15_rest_example"
   ],
   "note": "Proved for the comments between nodes (before and after nodes and their terminators, and at both ends of each block), for every document. C15_violated_*: a comment at the end of a line, before an entry and before a block is dropped. C15_rest_lost: they are lost in every parsed document, with everything else recorded besides data, comments between nodes and texts of annotations of entries."
  },
  {
   "property": "C16",
   "status": "partial",
   "theorems": [
    "Kdl.C16_no_comments_partial",
    "Kdl.C16_exact",
    "Kdl.C16_violated_terminator",
    "Kdl.C16_parsed"
   ],
   "note": "C16_violated_terminator: a stored terminator that starts with a line feed is kept verbatim. C16_exact: this is the only exception. Holds for every parsed document (C16_parsed)."
  },
  {
   "property": "C17",
   "status": "partial",
   "theorems": [
    "Kdl.C17_clear_format_canonical_partial",
    "Kdl.C17_violated",
    "Kdl.C17_exact",
    "Kdl.C17_clear_keeps_data_aux",
    "Kdl.C17_clear_keeps_data"
   ],
   "note": "C17_violated: the representation of a node type annotation is not cleared. C17_exact: documents with the same data are equal afterwards iff the annotations of their nodes are spelled alike; data preservation is unconditional."
  },
  {
   "property": "C18",
   "status": "partial",
   "theorems": [
    "Kdl.C18_single_exact",
    "Kdl.C18_single_partial",
    "Kdl.C18_violated"
   ],
   "note": "C18_violated: neighbouring nodes are printed without a separator. C18_single_exact: if no two nodes are neighbours, the text is accepted with the same data exactly if the strings can be written, and rejected otherwise."
  },
  {
   "property": "C19",
   "status": "proved",
   "theorems": [
    "Kdl.C19_get_last_property",
    "Kdl.C19_get_nth_argument",
    "Kdl.C19_entry_key",
    "Kdl.C19_entry_index",
    "Kdl.C19_entry_mut",
    "Kdl.C19_index"
   ],
   "note": "Characterises get/entry by the filtered entry lists and get_mut/entry_mut/Index against them."
  },
  {
   "property": "C20",
   "status": "proved",
   "theorems": [
    "Kdl.C20_insert_panics_iff",
    "Kdl.C20_insert_shape",
    "Kdl.C20_insert_map_update"
   ],
   "note": "Panic condition, exact shape of the new entry list and the map-update laws."
  },
  {
   "property": "C21",
   "status": "partial",
   "theorems": [
    "Kdl.C21_remove_absent",
    "Kdl.C21_remove_partial",
    "Kdl.C21_violated_representation",
    "Kdl.C21_violated_duplicate",
    "Kdl.C21_exact",
    "Kdl.C21_holds_iff"
   ],
   "note": "remove compares the key including its textual representation and takes the first duplicate: C21_violated_representation and C21_violated_duplicate are concrete counterexamples. C21_exact says for every node and key what remove does, C21_holds_iff exactly when it returns the value that get finds and when the key is gone; C21_remove_absent is unconditional."
  },
  {
   "property": "C22",
   "status": "proved",
   "theorems": [
    "Kdl.C22_insert_panics_iff",
    "Kdl.C22_insert_shape",
    "Kdl.C22_remove_panics_iff",
    "Kdl.C22_remove_shape",
    "Kdl.C22_remove_after_insert"
   ],
   "note": "Panic conditions, exact shape, and remove after insert is the identity."
  },
  {
   "property": "C23",
   "status": "proved",
   "theorems": [
    "Kdl.C23_index_assign",
    "Kdl.C23_key_assign",
    "Kdl.C23_key_assign_observed",
    "Kdl.C23_index_assign_observed"
   ],
   "note": "Exact shape and observable effect of index assignment."
  },
  {
   "property": "C24",
   "status": "proved",
   "theorems": [
    "Kdl.C24_get_first",
    "Kdl.C24_get_none",
    "Kdl.C24_iter_args",
    "Kdl.C24_get_arg",
    "Kdl.C24_iter_dash_args",
    "Kdl.C24_get_mut",
    "Kdl.C24_get_arg_mut"
   ],
   "note": "Lookups characterised by first-match decompositions."
  },
  {
   "property": "C25",
   "status": "proved",
   "theorems": [
    "Kdl.C25_value",
    "Kdl.C25_ident",
    "Kdl.C25_entry",
    "Kdl.C25_node",
    "Kdl.C25_document"
   ],
   "note": "Equivalence and hash laws for all five types."
  },
  {
   "property": "C26",
   "status": "partial",
   "theorems": [
    "Kdl.C26_consistent_partial",
    "Kdl.C26_equal_implies_eq",
    "Kdl.C26_exact",
    "Kdl.C26_violated_nan",
    "Kdl.C26_violated_inf"
   ],
   "note": "Violated by NaN and by infinity versus f64::MAX (C26_violated_*). C26_exact decides every pair of values: the two disagree exactly for a NaN with a NaN or a zero, and for an infinity with the largest finite float of its sign; the direction Equal implies == is unconditional."
  },
  {
   "property": "C27",
   "status": "proved",
   "theorems": [
    "Kdl.C27_spans_ignored",
    "Kdl.C27_node_spans_ignored",
    "Kdl.C27_entry_spans_ignored",
    "Kdl.C27_equal_prints_equal",
    "Kdl.C27_non_floats_stable",
    "Kdl.C27_formatted_stable",
    "Kdl.C27_float_condition_needed"
   ],
   "note": "Span independence at every level, and equal documents print equally when the printed values do."
  },
  {
   "property": "C28",
   "status": "proved",
   "theorems": [
    "Kdl.C28_quoted",
    "Kdl.C28_only"
   ],
   "note": "All quoted texts, and no others between single quotes."
  },
  {
   "property": "C29",
   "status": "partial",
   "theorems": [
    "Kdl.C29_quoted",
    "Kdl.C29_raw_partial",
    "Kdl.C29_raw_exact",
    "Kdl.C29_lines",
    "Kdl.C29_violated"
   ],
   "note": "C29_violated: a raw multi-line string whose value is a single quote is rejected. Quoted strings without exception; raw strings with any other value; C29_raw_exact: that value is the only one rejected."
  },
  {
   "property": "C30",
   "status": "proved",
   "theorems": [
    "Kdl.C30_raw"
   ],
   "note": "Every body and every number of hashes."
  },
  {
   "property": "C31",
   "status": "proved",
   "theorems": [
    "Kdl.C31_space",
    "Kdl.C31_leading",
    "Kdl.C31_trailing",
    "Kdl.C31_unterminated",
    "Kdl.C31_unterminated_name"
   ],
   "note": "Comments are described twice, as nested texts and by counting delimiters; the two descriptions agree. A closed comment separates, precedes or follows like a space; an unclosed one at the start of a document or after a node name is an error."
  },
  {
   "property": "C32",
   "status": "partial",
   "theorems": [
    "Kdl.C32_any_node_partial",
    "Kdl.C32_any_node_exact",
    "Kdl.C32_any_entry",
    "Kdl.C32_any_block_exact",
    "Kdl.C32_violated_block",
    "Kdl.C32_entry",
    "Kdl.C32_last",
    "Kdl.C32_children",
    "Kdl.C32_node_partial",
    "Kdl.C32_node_after_partial",
    "Kdl.C32_violated"
   ],
   "note": "C32_violated: a slashdashed node that ends with a semicolon makes the document an error; C32_violated_block: so does a slashdash in front of a block that touches the name, or between two blocks that touch. Everything else is proved for every accepted document and every place in it, at any depth: every entry (C32_any_entry), every node not ended by a semicolon (C32_any_node_partial), every block with space in front and no slashdashed block directly behind (C32_any_block_exact); the removed element is exactly the one at that place. The exceptions are exact: with a semicolon behind the node (C32_any_node_exact), without space in front of the block, or with a slashdashed block directly behind it (C32_any_block_exact), the text with the slashdash is always rejected."
  },
  {
   "property": "C33",
   "status": "partial",
   "theorems": [
    "Kdl.C33_accepted",
    "Kdl.C33_number",
    "Kdl.C33_reserved_partial",
    "Kdl.C33_violated",
    "Kdl.C33_exact"
   ],
   "note": "C33_violated: -inf is accepted unquoted. Exact characterisation of the accepted unquoted texts; everything that starts like a number and all other reserved words are rejected."
  },
  {
   "property": "C34",
   "status": "partial",
   "theorems": [
    "Kdl.C34_set_value_partial",
    "Kdl.C34_stale",
    "Kdl.C34_violated",
    "Kdl.C34_built_exact",
    "Kdl.C34_parsed_exact",
    "Kdl.C34_identifier_partial",
    "Kdl.C34_identifier_stale",
    "Kdl.C34_identifier_violated",
    "Kdl.C34_identifier_exact",
    "Kdl.C34_assign_exact",
    "Kdl.C34_index_exact",
    "Kdl.C34_assign_stale",
    "Kdl.C34_assign_partial",
    "Kdl.C34_index_assign_partial",
    "Kdl.C34_key_assign_partial",
    "Kdl.C34_document_stale"
   ],
   "note": "C34_stale, C34_document_stale: an entry with a stored text (every parsed one) prints the old text whatever value is set; same for identifiers. Decided: C34_parsed_exact (a parsed entry is read back as the old one), C34_built_exact, C34_identifier_exact, C34_assign_exact, C34_index_exact (for built entries, names and nodes the new value is read back exactly if everything can be written, otherwise the text is rejected)."
  },
  {
   "property": "C35",
   "status": "partial",
   "theorems": [
    "Kdl.C35_ensure_v2_keeps_data",
    "Kdl.C35_document_exact",
    "Kdl.C35_entry_partial",
    "Kdl.C35_entry_exact",
    "Kdl.C35_document_partial",
    "Kdl.C35_again_partial",
    "Kdl.C35_example",
    "Kdl.C35_example_lines",
    "Kdl.C35_violated_empty",
    "Kdl.C35_violated_number",
    "Kdl.C35_violated_slash",
    "Kdl.C35_violated_lines"
   ],
   "note": "Data preservation for any number of runs, on every document. For parsed entries and documents the printed text after ensure_v2 is read again with the same data, and a second run changes nothing, if the texts survive: no empty string, nothing like -.5, no backslash-slash, no escaped line break at the end of a string, and any two nodes in a row are parted by what was recorded. Each of the first four exclusions is a proven violation. C35_entry_exact: the text of a parsed entry is a text of its value afterwards exactly if it survives. C35_document_exact: if the texts survive, the printed text is accepted with the same data exactly if nodes in a row are parted, and rejected otherwise."
  },
  {
   "property": "C36",
   "status": "proved",
   "theorems": [
    "Kdl.C36_document",
    "Kdl.C36_node",
    "Kdl.C36_entry",
    "Kdl.C36_identifier"
   ],
   "note": "Every identifier, entry, node and document span selects the text it was read from."
  },
  {
   "property": "C37",
   "status": "partial",
   "theorems": [
    "Kdl.C37_keep_format_once_partial",
    "Kdl.C37_entry_keep_config",
    "Kdl.C37_not_kept",
    "Kdl.C37_violated",
    "Kdl.C37_exact"
   ],
   "note": "C37_violated: the mark is dropped by the first autoformat. C37_exact: the texts survive k runs exactly if k is at most 1; under entry_keep they survive any number of runs."
  },
  {
   "property": "C38",
   "status": "proved",
   "theorems": [
    "Kdl.C38_entries",
    "Kdl.C38_printed"
   ],
   "note": "Any entries, with any space, comments and slashdashed entries between them; printed entries in particular (their strings must be writable, see C08)."
  },
  {
   "property": "C39",
   "status": "proved",
   "theorems": [
    "Kdl.C39_diagnosed",
    "Kdl.C39_ok_iff",
    "Kdl.C39_err_has_diagnostic",
    "Kdl.C39_independent"
   ],
   "note": "For every text and every recovery behaviour; the place where parsing resumes after a fatal error is left open except where the code fixes it. C39_diagnosed for the implemented recovery."
  },
  {
   "property": "C40",
   "status": "proved",
   "theorems": [
    "Kdl.C40_builder",
    "Kdl.C40_default",
    "Kdl.C40_commute"
   ],
   "note": "Any sequence of setter calls."
  },
  {
   "property": "C41",
   "status": "proved",
   "theorems": [
    "Kdl.C41_len",
    "Kdl.C41_ident_nonempty",
    "Kdl.C41_entry_nonempty"
   ],
   "note": "UTF-8 byte length and emptiness."
  },
  {
   "property": "C42",
   "status": "partial",
   "theorems": [
    "Kdl.C42_strings_partial",
    "Kdl.C42_violated",
    "Kdl.C42_exact"
   ],
   "note": "C42_violated: U+007F is accepted; C42_exact: it is the only one. All other disallowed code points are covered, in every form of string."
  },
  {
   "property": "C43",
   "status": "proved",
   "theorems": [
    "Kdl.C43_grouped",
    "Kdl.C43_children",
    "Kdl.C43_vec"
   ],
   "note": "Every list of nodes, at the top level and in children blocks; the sequence read for a repeated name."
  },
  {
   "property": "C44",
   "status": "partial",
   "theorems": [
    "Kdl.C44_decided",
    "Kdl.C44_exact",
    "Kdl.C44_written",
    "Kdl.C44_roundtrip_partial",
    "Kdl.C44_violated_flag",
    "Kdl.C44_violated_option",
    "Kdl.C44_violated_empty",
    "Kdl.C44_violated_seq",
    "Kdl.C44_violated_map",
    "Kdl.C44_violated_unit",
    "Kdl.C44_violated_tuple",
    "Kdl.C44_violated_variant",
    "Kdl.C44_violated_scalar",
    "Kdl.C44_violated_text",
    "Kdl.C44_violated_order",
    "Kdl.C44_violated_name",
    "Kdl.C44_violated_annotation",
    "Kdl.C44_violated_args",
    "Kdl.C44_violated_rest",
    "Kdl.C44_violated_collision",
    "Kdl.C44_violated_first"
   ],
   "note": "Violated; C44_decided decides it: for every value of every modelled type whose written document is d, reading the text gives the value back iff d is writable (DocWritable: no string that the printer leaves unreadable) and Kept holds, and gives an error if d is not writable; C44_exact is the case of writable values, and C44_written says exactly when to_string succeeds. Lost or unreadable (C44_violated_*): false and Some(false) at the top level, Some([]), sequences beginning with false, map entries false or null below the top level, unit fields, top-level tuples, scalars and unit/tuple/struct variants, and strings the printer does not escape. Float texts go through LawfulFloatIO, proved for std floats by rustFloatIO_lawful. Structs may have fields #0, #1, ... in this order, #rest behind them or #args alone, #@p properties and children, in any arrangement without clashing names (Layout); other arrangements are shown to fail (C44_violated_order, _name, _annotation, _args, _rest, _collision), as is a struct whose first argument is false (C44_violated_first). Fields of struct variants have no # names here (those are dropped or misplaced, see C45)."
  },
  {
   "property": "C45",
   "status": "partial",
   "theorems": [
    "Kdl.C45_represented_partial",
    "Kdl.C45_exact",
    "Kdl.C45_violated_variant",
    "Kdl.C45_violated_seq",
    "Kdl.C45_violated_struct",
    "Kdl.C45_violated_args",
    "Kdl.C45_violated_prop"
   ],
   "note": "Violated by struct variants, by sequences and structs whose first argument is false or null, and by argument and property fields of nested struct variants (C45_violated_*). C45_exact: the scalars of the document are exactly those of the value, with multiplicity and place, if and only if the value has none of these (FaithfulDoc)."
  },
  {
   "property": "C46",
   "status": "proved",
   "theorems": [
    "Kdl.C46_exact",
    "Kdl.C46_in_range",
    "Kdl.C46_out_of_range"
   ],
   "note": "Every i128 value, all eight types; exact if in range, an error otherwise."
  },
  {
   "property": "C47",
   "status": "proved",
   "theorems": [
    "Kdl.C47_accepted",
    "Kdl.C47_unique"
   ],
   "note": "Soundness of the grammar: every derivable text. The converse is C50."
  },
  {
   "property": "C48",
   "status": "proved",
   "theorems": [
    "Kdl.C48_retain",
    "Kdl.C48_retain_observed",
    "Kdl.C48_retain_laws",
    "Kdl.C48_clear",
    "Kdl.C48_push",
    "Kdl.C48_children",
    "Kdl.C48_set_name_ty",
    "Kdl.C48_sort_by",
    "Kdl.C48_sort_by_key",
    "Kdl.C48_sort_idem",
    "Kdl.C48_sort_lookup"
   ],
   "note": ""
  },
  {
   "property": "C49",
   "status": "partial",
   "theorems": [
    "Kdl.C49_text_partial",
    "Kdl.C49_exact",
    "Kdl.C49_violated"
   ],
   "note": "C49_violated: the string -.5 is written bare. C49_exact: the text is accepted with the data of the document exactly if the strings of the document are writable, and rejected otherwise; assuming LawfulFloatIO."
  },
  {
   "property": "C50",
   "status": "proved",
   "theorems": [
    "Kdl.C50_document",
    "Kdl.C50_document_rejected",
    "Kdl.C50_node",
    "Kdl.C50_node_rejected",
    "Kdl.C50_entry",
    "Kdl.C50_entry_rejected",
    "Kdl.C50_identifier",
    "Kdl.C50_bom",
    "Kdl.C50_document_example",
    "Kdl.C50_rejected_example",
    "Kdl.C50_node_example",
    "Kdl.C50_entry_example",
    "Kdl.C50_quirks",
    "Kdl.C50_raw_quirk"
   ],
   "note": "Both directions, for documents, nodes, entries and identifiers. The grammar is the one the code implements; C50_quirks shows where it departs from the published one."
  },
  {
   "property": "C51",
   "status": "proved",
   "theorems": [
    "Kdl.C51_separated",
    "Kdl.C51_example"
   ],
   "note": "For nodes that are not slashdashed; slashdashed ones need no terminator after a block or keyword (C50_quirks)."
  },
  {
   "property": "C52",
   "status": "partial",
   "theorems": [
    "Kdl.C52_edit_partial",
    "Kdl.C52_example",
    "Kdl.C52_violated_terminator",
    "Kdl.C52_violated_slashdash",
    "Kdl.C52_exact",
    "Kdl.C52_exact_example",
    "Kdl.C52_exact_parted"
   ],
   "note": "C52_violated_*: the terminator of a node may not have been recorded, and a slashdash may follow a keyword directly. Proved for documents in which any two nodes in a row are parted by what was recorded, for all other edits. C52_exact: apart from entries in front of a slashdash, the edited document gives an accepted text with its data exactly if nodes in a row are parted, and a rejected one otherwise."
  },
  {
   "property": "C53",
   "status": "partial",
   "theorems": [
    "Kdl.C53_session_partial",
    "Kdl.C53_example",
    "Kdl.C53_violated_unterminated",
    "Kdl.C53_violated_comment",
    "Kdl.C53_violated_slashdash"
   ],
   "note": "By an invariant that parsing establishes and every change keeps. C53_violated_*: a node pushed after a node or comment that does not end its line, or after a slashdash that follows a keyword. Proved when every node but the last of its block ends with a terminator, for every sequence of changes that inserts nodes only after such nodes; new strings must be writable (C08); LawfulFloatIO assumed."
  },
  {
   "property": "C54",
   "status": "proved",
   "theorems": [
    "Kdl.C54_struct",
    "Kdl.C54_omitted",
    "Kdl.C54_flag",
    "Kdl.C54_seq",
    "Kdl.C54_enum",
    "Kdl.C54_enum_unit",
    "Kdl.C54_enum_self",
    "Kdl.C54_enum_prop",
    "Kdl.C54_example",
    "Kdl.C54_collision",
    "Kdl.C54_duplicate"
   ],
   "note": "C54_struct for every field kind; C54_flag, C54_seq, C54_enum, C54_enum_unit, C54_enum_prop, C54_enum_self, C54_omitted for the other targets. The names excluded by the quantifier collide (C54_collision); a property given twice is a duplicate field (C54_duplicate). Visitors are modelled by the type they build (DESIGN.md)."
  },
  {
   "property": "C55",
   "status": "proved",
   "theorems": [
    "Kdl.C55_diagnosed",
    "Kdl.C55_diagnostics_in_text"
   ],
   "note": "C55_diagnostics_in_text, for all four parse functions and every recovery behaviour; that an error has at least one diagnostic is C39_err_has_diagnostic. Where a failing parser stops is a parameter there; C55_diagnosed for the implemented recovery."
  },
  {
   "property": "C56",
   "status": "proved",
   "theorems": [
    "Kdl.C56_document",
    "Kdl.C56_node",
    "Kdl.C56_entry",
    "Kdl.C56_needs_no_comment",
    "Kdl.C56_needs_no_keep"
   ],
   "note": "C56_document, C56_node, C56_entry. C56_needs_no_comment and C56_needs_no_keep show that two of the exclusions in the statement are needed (for the other two see C14_violated_slashdash and C14_violated_bom)."
  },
  {
   "property": "C57",
   "status": "partial",
   "theorems": [
    "Kdl.C57_literal_accepted_partial",
    "Kdl.C57_literal_unique",
    "Kdl.C57_literal_rejected",
    "Kdl.C57_document_floats",
    "Kdl.C57_violated"
   ],
   "note": "C57_violated: π with forty digits behind the point is rejected, as are all literals with a digit group above i128::MAX (C57_literal_rejected). Proved for all others, with uniqueness of the value, and for all floats of all accepted documents. str::parse::<f64> is modelled by its documentation."
  },
  {
   "property": "C58",
   "status": "proved",
   "theorems": [
    "Kdl.C58_shortest",
    "Kdl.C58_roundtrip"
   ],
   "note": "C58_shortest, C58_roundtrip, for the documented behaviour of {:?}; so LawfulFloatIO, assumed by other theorems, holds (rustFloatIO_lawful)."
  },
  {
   "property": "C59",
   "status": "proved",
   "theorems": [
    "Kdl.C59_float",
    "Kdl.C59_integer",
    "Kdl.C59_only_numbers"
   ],
   "note": "C59_float, C59_integer, C59_only_numbers."
  },
  {
   "property": "C60",
   "status": "partial",
   "theorems": [
    "Kdl.C60_node_partial",
    "Kdl.C60_node_exact",
    "Kdl.C60_name",
    "Kdl.C60_entry_partial",
    "Kdl.C60_entry_exact",
    "Kdl.C60_violated",
    "Kdl.C60_violated_space"
   ],
   "note": "C60_violated: where a slashdash follows directly, only keywords are accepted in front of it. C60_violated_space: with a node that ends with space in front of it, the slashdash silently becomes part of that node. C60_name without exceptions; C60_entry_exact decides every other entry at every place; C60_node_exact every other node but those that end with space in front of a slashdash."
  },
  {
   "property": "C61",
   "status": "partial",
   "theorems": [
    "Kdl.C61_partial",
    "Kdl.C61_exact",
    "Kdl.C61_no_slashdash",
    "Kdl.C61_violated",
    "Kdl.C61_violated_mark"
   ],
   "note": "C61_violated: after a node directly followed by a slashdash (a #true/-b) no node may follow. C61_exact decides it: for texts without a byte order mark in the second one, the concatenation has the nodes of both exactly if there is no such slashdash or the second text has no nodes, and is rejected otherwise."
  },
  {
   "property": "C62",
   "status": "proved",
   "theorems": [
    "Kdl.C62_needs_no_mark"
   ],
   "note": ""
  },
  {
   "property": "C63",
   "status": "proved",
   "theorems": [
    "Kdl.C63_node",
    "Kdl.C63_document",
    "Kdl.C63_same",
    "Kdl.C63_parsed",
    "Kdl.C63_printed",
    "Kdl.C63_source",
    "Kdl.C63_kinds",
    "Kdl.C63_from"
   ],
   "note": "C63_node, C63_document for all documents; C63_same, C63_parsed, C63_printed; C63_source, C63_from, C63_kinds for conversions and is_*."
  },
  {
   "property": "C64",
   "status": "partial",
   "theorems": [
    "Kdl.C64_documented_partial",
    "Kdl.C64_unambiguous_partial",
    "Kdl.C64_exact",
    "Kdl.C64_data",
    "Kdl.C64_violated",
    "Kdl.C64_example"
   ],
   "note": "C64_violated: a slashdashed node that ends with a semicolon is documented but an error. Proved for all other documented texts, with C64_unambiguous_partial. C64_exact: a documented text is accepted with its data exactly if it needs no such node, and an error otherwise; C64_data: it is never read as other data."
  },
  {
   "property": "C65",
   "status": "partial",
   "theorems": [
    "Kdl.C65_spaced_partial",
    "Kdl.C65_shifted_partial",
    "Kdl.C65_example_shifted",
    "Kdl.C65_violated",
    "Kdl.C65_example"
   ],
   "note": "C65_violated: a doubled slashdash is accepted, and no spaces make the text a documented one. Proved for all texts without doubled slashdashes; this is meant of the characters, so texts with them inside strings or comments are left out as well. C65_shifted_partial: every accepted text without exception becomes a documented one with the same data if spaces and line feeds are put in and the second of two slashdashes in a row is moved towards the end, so doubled slashdashes are the only exception."
  },
  {
   "property": "C66",
   "status": "proved",
   "theorems": [
    "Kdl.C66_document",
    "Kdl.C66_rejected",
    "Kdl.C66_node",
    "Kdl.C66_entry",
    "Kdl.C66_identifier",
    "Kdl.C66_crlf",
    "Kdl.C66_example",
    "Kdl.C66_example_mixed",
    "Kdl.C66_needed"
   ],
   "note": "C66_document, C66_rejected, C66_node, C66_entry, C66_identifier without exceptions; C66_crlf."
  },
  {
   "property": "C67",
   "status": "partial",
   "theorems": [
    "Kdl.C67_node",
    "Kdl.C67_document_partial",
    "Kdl.C67_entry_partial",
    "Kdl.C67_identifier",
    "Kdl.C67_violated",
    "Kdl.C67_example",
    "Kdl.C67_exact",
    "Kdl.C67_entry_exact",
    "Kdl.C67_exact_example",
    "Kdl.C67_entry_exact_example"
   ],
   "note": "C67_violated: a slashdashed node behind the node and a byte order mark are accepted in documents only, and an entry on a line of its own by KdlEntry::parse only. C67_node and C67_identifier without exceptions; C67_document_partial for texts without slashdash, C67_entry_partial for entries on one line. Decided: C67_exact (a document text with one node is accepted by KdlNode::parse exactly if it has no byte order mark and nothing slashdashed behind the node) and C67_entry_exact (an accepted entry may stand behind a name exactly if it begins on its first line)."
  },
  {
   "property": "C68",
   "status": "proved",
   "theorems": [
    "Kdl.C68_accepted_same_data",
    "Kdl.C68_example"
   ],
   "note": "C68_accepted_same_data; from the exact characterisation C11_exact."
  },
  {
   "property": "C69",
   "status": "proved",
   "theorems": [
    "Kdl.C69_document",
    "Kdl.C69_node",
    "Kdl.C69_entry",
    "Kdl.C69_ident",
    "Kdl.C69_example"
   ],
   "note": "C69_document, C69_node, C69_entry, C69_ident, C69_example, for every behaviour of the v1 parser (parameter V1Lib)."
  },
  {
   "property": "C70",
   "status": "partial",
   "theorems": [
    "Kdl.C70_data",
    "Kdl.C70_data_parts",
    "Kdl.C70_ensure",
    "Kdl.C70_string_partial",
    "Kdl.C70_string_exact",
    "Kdl.C70_string_example",
    "Kdl.C70_document_partial",
    "Kdl.C70_rejects",
    "Kdl.C70_example",
    "Kdl.C70_violated_comment",
    "Kdl.C70_violated_changed",
    "Kdl.C70_violated_rejected"
   ],
   "note": "C70_data, C70_data_parts, C70_ensure, C70_rejects without exceptions. C70_violated_comment: a comment behind a node swallows the next node; C70_violated_changed and C70_violated_rejected: strings with a backslash in a raw string, blank or CRLF lines, an escaped slash over several lines, empty strings, keys and slashdashed parts. C70_document_partial for documents without these (V1Doc), C70_string_partial for strings (V1Good), and C70_string_exact: exactly these v1 strings are converted to v2 texts of the same string."
  },
  {
   "property": "C71",
   "status": "partial",
   "theorems": [
    "Kdl.C71_data",
    "Kdl.C71_layout",
    "Kdl.C71_example_layout",
    "Kdl.C71_text",
    "Kdl.C71_string_exact",
    "Kdl.C71_entry",
    "Kdl.C71_example",
    "Kdl.C71_violated_text",
    "Kdl.C71_violated_integer"
   ],
   "note": "C71_data, C71_entry and C71_layout (the recorded layout of nodes) without exceptions, C71_string_exact decides which strings become v1 texts of themselves. C71_violated_text: strings over several lines, \\s, keys, and the last node of a block; C71_violated_integer: a new integer is cut off modulo 2^64."
  },
  {
   "property": "C72",
   "status": "partial",
   "theorems": [
    "Kdl.C72_texts_partial",
    "Kdl.C72_texts_exact",
    "Kdl.C72_report_partial",
    "Kdl.C72_single",
    "Kdl.C72_example",
    "Kdl.C72_violated"
   ],
   "note": "C72_violated: of several changes in one notification the first is kept instead of the last, and a notification without changes is a panic. C72_texts_exact decides it for every history of texts. C72_texts_partial for all histories whose change notifications have one change each; C72_report_partial for the reports on every document whose text the server has by that criterion (C72_single: all documents if every change is single)."
  },
  {
   "property": "C73",
   "status": "partial",
   "theorems": [
    "Kdl.C73_unique",
    "Kdl.C73_exact",
    "Kdl.C73_unicode",
    "Kdl.C73_order",
    "Kdl.C73_report_exact",
    "Kdl.C73_example",
    "Kdl.C73_violated"
   ],
   "note": "C73_violated: vertical tab, form feed, next line, line separator and paragraph separator are counted as line ends. C73_exact: the position is right if and only if none of these is in front of the place. C73_order and C73_unicode without exceptions, C73_report_exact: both ends of each item of a report are right if and only if none of these is in front of them."
  },
  {
   "property": "C74",
   "status": "proved",
   "theorems": [
    "Kdl.C74_built",
    "Kdl.C74_built_formatted",
    "Kdl.C74_formatted",
    "Kdl.C74_serialised",
    "Kdl.C74_value",
    "Kdl.C74_identifier",
    "Kdl.C74_entry"
   ],
   "note": "Corollaries of C08, C09, C10_exact, C14_built_exact, C14_no_comments_exact, C34_built_exact and C49_exact; assumes LawfulFloatIO (floats are read back from their texts)."
  },
  {
   "property": "C75",
   "status": "partial",
   "theorems": [
    "Kdl.C75_data",
    "Kdl.C75_not_kept",
    "Kdl.C75_kept",
    "Kdl.C75_unkept",
    "Kdl.C75_everywhere",
    "Kdl.C75_v1_string_partial",
    "Kdl.C75_v1_other",
    "Kdl.C75_v2_value_partial",
    "Kdl.C75_exact",
    "Kdl.C75_example",
    "Kdl.C75_violated"
   ],
   "note": "Violated: C75_violated (with the feature, a kept empty string of a v2 document is lost and \"-.5\" becomes a rejected number, because ensure_v2 rewrites them). Data, unkept entries, kept keywords and numbers are proved for all inputs; the texts of kept strings for those that survive ensure_v2 (V1Good, V2Entry), and C75_exact: no others get a text of their value."
  },
  {
   "property": "C76",
   "status": "partial",
   "theorems": [
    "Kdl.C76_document_partial",
    "Kdl.C76_others_partial",
    "Kdl.C76_violated"
   ],
   "note": "Violated: C76_violated (KdlNode::parse, KdlEntry::parse and KdlIdentifier::parse report what is left over, and an empty node, without message and label). C76_document_partial for every text given to KdlDocument::parse; C76_others_partial for the other functions: only the last diagnostic can lack them, and only if it begins at the beginning of the text or ends at its end."
  },
  {
   "property": "C77",
   "status": "proved",
   "theorems": [
    "Kdl.C77_unclosed",
    "Kdl.C77_example",
    "Kdl.C77_nodes",
    "Kdl.C77_mistakes",
    "Kdl.C77_example_mistakes",
    "Kdl.C77_example_faulty",
    "Kdl.C77_example_nodes"
   ],
   "note": "For the implemented recovery (Model/Diag.lean), with exact regions, messages and labels. The text in the block may not start with a byte order mark. C77_unclosed is about a text of one node, C77_nodes about any nodes in front of it. C77_mistakes: with mistaken words in and in front of the block, too, all are reported (if the mistaken names leave no text of the nodes in the block, the second diagnostic is left out: C77_example_mistakes)."
  },
  {
   "property": "C78",
   "status": "proved",
   "theorems": [
    "Kdl.C78_stray",
    "Kdl.C78_example",
    "Kdl.C78_any",
    "Kdl.C78_mistakes",
    "Kdl.C78_example_mistakes"
   ],
   "note": "For the implemented recovery (Model/Diag.lean), with exact region, message and label: C78_stray for two accepted texts, C78_any for any text after the brace. C78_mistakes: with mistaken words in front of the brace and behind it, all are reported, in order, and nothing else."
  },
  {
   "property": "C79",
   "status": "partial",
   "theorems": [
    "Kdl.C79_unclosed_partial",
    "Kdl.C79_violated",
    "Kdl.C79_violated_exponential",
    "Kdl.C79_violated_bound",
    "Kdl.C79_example"
   ],
   "note": "Violated: C79_violated (whatever is reported about an unclosed slashdashed block is reported twice), C79_violated_exponential and C79_violated_bound (nested, 5 k characters have at least 2^k - 1 diagnostics). C79_unclosed_partial for every unclosed block that is not slashdashed."
  },
  {
   "property": "C80",
   "status": "partial",
   "theorems": [
    "Kdl.C80_partial",
    "Kdl.C80_no_slashdash",
    "Kdl.C80_slashdash",
    "Kdl.C80_violated_slashdash",
    "Kdl.C80_example_slashdash",
    "Kdl.C80_violated_again",
    "Kdl.C80_violated_comment"
   ],
   "note": "C80_partial: for every accepted text that has no slashdash directly after its last node, and every text after it, the same diagnostics (as a set), moved. Violated after such a slashdash (C80_violated_slashdash; C80_slashdash: whenever a node follows, its first character is reported and the text behind that is reported about on its own), by the number of times a mistake is reported (C80_violated_again) and by the place of an unclosed comment, which is the beginning of the whole text (C80_violated_comment)."
  },
  {
   "property": "C81",
   "status": "partial",
   "theorems": [
    "Kdl.C81_partial",
    "Kdl.C81_no_mistakes",
    "Kdl.C81_front",
    "Kdl.C81_violated_lacking",
    "Kdl.C81_violated_property",
    "Kdl.C81_violated_missing",
    "Kdl.C81_violated_name",
    "Kdl.C81_example_twice",
    "Kdl.C81_example_word",
    "Kdl.C81_example_faulty",
    "Kdl.C81_example",
    "Kdl.C81_example_strings",
    "Kdl.C81_example_strings_report",
    "Kdl.C81_example_types",
    "Kdl.C81_example_types_report",
    "Kdl.C81_violated_string",
    "Kdl.C81_violated_exponent",
    "Kdl.C81_example_property",
    "Kdl.C81_example_missing",
    "Kdl.C81_violated_point",
    "Kdl.C81_violated_large",
    "Kdl.C81_example_digit",
    "Kdl.C81_example_float",
    "Kdl.C81_example_lacking",
    "Kdl.C81_example_lines",
    "Kdl.C81_violated_lines",
    "Kdl.C81_violated_keyword",
    "Kdl.C81_example_triple",
    "Kdl.C81_example_raw",
    "Kdl.C81_violated_raw",
    "Kdl.C81_violated",
    "Kdl.C81_example_front",
    "Kdl.C81_example_after"
   ],
   "note": "C81_partial: names of nodes and types, keys, arguments and property values, at any depth, that are words of the wrong kind (numbers in all bases and floats with a letter behind them, numbers with a base but no digit, floats with a letter in place of the digits behind the point or in the exponent, reserved words, unknown keywords) or quoted strings with a wrong escape, with text behind them (also over several lines), or not closed, or three quotation marks in one line, or raw strings with text behind them unless the next quotation mark or # is followed by space, with exact spans, messages and help, also after a byte order mark; C81_front: for one node with such mistakes in front of any text. Violated by every such number and unknown keyword as property value (C81_violated, C81_violated_property: nothing after it is reported, whatever it is), by a number that lacks its digits or a lone # (C81_violated_exponent, C81_violated_lacking: the next character and word are not reported, whatever they are), by a keyword with text behind it (C81_violated_keyword: reported as the end of the document), by a wrong escape in a string with spaces (C81_violated_string: reported twice), by mistakes within strings over several lines (C81_violated_lines: the closing quotation marks are reported, too), by a property without value at the end of a line or node (C81_violated_missing: nothing after it is reported, whatever it is), by a number with a point in front or an integer that is too large (C81_violated_point, C81_violated_large: reported twice, not as numbers) by a raw string with text behind it (C81_violated_raw: what follows is left out up to the next quotation mark or #) and by a reserved word as node name (C81_violated_name, C81_example_twice: reported twice). Missing: other mistakes, among them unclosed blocks, annotations and comments."
  },
  {
   "property": "C82",
   "status": "partial",
   "theorems": [
    "Kdl.C82_in_text",
    "Kdl.C82_syntax",
    "Kdl.C82_element",
    "Kdl.C82_unplaced",
    "Kdl.C82_same",
    "Kdl.C82_partial",
    "Kdl.C82_property",
    "Kdl.C82_example",
    "Kdl.C82_violated_empty",
    "Kdl.C82_violated_two",
    "Kdl.C82_violated_twice",
    "Kdl.C82_violated_missing",
    "Kdl.C82_example_syntax",
    "Kdl.C82_example_first",
    "Kdl.C82_example_unplaced",
    "Kdl.C82_example_property"
   ],
   "note": "C82_in_text, C82_syntax and C82_element hold for every text and type; C82_partial says that the first value that does not suit its field is pointed at, for documents of nodes with different names read as a struct. C82_property: whatever is wrong with a property value points at the property, for every type. C82_same connects the model with that of the other serde properties. Violated: errors about missing, repeated or empty nodes have no span at all (C82_violated_empty, C82_violated_two, C82_violated_twice, C82_violated_missing); C82_unplaced shows that these are never about a value: no other values of the same kinds would help."
  },
  {
   "property": "C83",
   "status": "partial",
   "theorems": [
    "Kdl.C83_text",
    "Kdl.C83_node",
    "Kdl.C83_parsed",
    "Kdl.C83_parsed_node",
    "Kdl.C83_partial",
    "Kdl.C83_node_partial",
    "Kdl.C83_exact",
    "Kdl.C83_same",
    "Kdl.C83_lines",
    "Kdl.C83_example",
    "Kdl.C83_example_default",
    "Kdl.C83_violated_level",
    "Kdl.C83_violated_annotation"
   ],
   "note": "C83_text gives the formatted text for every document with nothing but white space between its parts, or formatted without comments, at every level and with any white-space indent; C83_partial and C83_node_partial for parsed texts, C83_lines (a line of the layout contains no line feed), C83_same. Violated: the first line of a document formatted at a level above 0 is indented twice (C83_violated_level; C83_exact: exactly then), and annotations of entries keep their quotes (C83_violated_annotation)."
  },
  {
   "property": "C84",
   "status": "partial",
   "theorems": [
    "Kdl.C84_text",
    "Kdl.C84_parsed",
    "Kdl.C84_partial",
    "Kdl.C84_violated_end",
    "Kdl.C84_violated_empty",
    "Kdl.C84_violated_behind",
    "Kdl.C84_example",
    "Kdl.C84_exact",
    "Kdl.C84_exact_example"
   ],
   "note": "C84_parsed gives the formatted text of every parsed document, comments included, at every level and with any white-space indent (C84_text for every document whose recorded texts are comments where the parser puts them). C84_partial: if the comments stand in front of nodes, the layout is the aligned one. C84_exact decides it for every accepted text: only comments behind the last node that happen to be indented by the one space of the indentation come out right otherwise. Violated: comments behind the last node (C84_violated_end), in a block without nodes (C84_violated_empty) and between a node and the end of its line (C84_violated_behind)."
  },
  {
   "property": "C85",
   "status": "proved",
   "theorems": [
    "Kdl.C85_displayed",
    "Kdl.C85_report",
    "Kdl.C85_faulty",
    "Kdl.C85_substitutes",
    "Kdl.C85_example"
   ],
   "note": "C85_displayed for every diagnostic of a document; C85_report for every text held by the server (which text that is: C72); C85_faulty combines it with C81. C85_substitutes: for KdlNode::parse the substitutes do appear (cf. C76)."
  }
 ]
}