{"id": "C01", "title": "Parsing then printing a document is lossless", "statement": "If KdlDocument::parse(s) returns Ok(doc) then doc.to_string() == s, byte for byte (the crate documentation: 'Documents fully roundtrip').", "quantifier": "every text s accepted by KdlDocument::parse", "why_tests_cant": "The domain is the set of all texts, which is infinite; any test suite samples finitely many of them and the failing inputs are rare combinations of syntax.", "anchors": ["src/lib.rs (crate docs, 'Documents fully roundtrip')", "src/document.rs: KdlDocument::parse, Display for KdlDocument", "src/node.rs: KdlNode::stringify", "src/v2_parser.rs: document, nodes, node, base_node"]}
{"id": "C02", "title": "Parsing then printing an entry is lossless", "statement": "If KdlEntry::parse(s) returns Ok(e) then e.to_string() == s.", "quantifier": "every text s accepted by KdlEntry::parse", "why_tests_cant": "The domain is the set of all texts, which is infinite; any test suite samples finitely many of them and the failing inputs are rare combinations of syntax.", "anchors": ["src/entry.rs: KdlEntry::parse, Display for KdlEntry", "src/v2_parser.rs: padded_node_entry, node_entry, value, ty"]}
{"id": "C03", "title": "Parsing then printing an identifier is lossless", "statement": "If KdlIdentifier::parse(s) returns Ok(i) then i.to_string() == s and i.repr() == Some(s).", "quantifier": "every text s accepted by KdlIdentifier::parse", "why_tests_cant": "The domain is the set of all texts, which is infinite; any test suite samples finitely many of them and the failing inputs are rare combinations of syntax.", "anchors": ["src/identifier.rs: KdlIdentifier::parse, Display", "src/v2_parser.rs: identifier, string"]}
{"id": "C04", "title": "Parsing then printing a node is lossless", "statement": "If KdlNode::parse(s) returns Ok(n) then n.to_string() == s.", "quantifier": "every text s accepted by KdlNode::parse", "why_tests_cant": "The domain is the set of all texts, which is infinite; any test suite samples finitely many of them and the failing inputs are rare combinations of syntax.", "anchors": ["src/node.rs: KdlNode::parse, KdlNode::stringify", "src/v2_parser.rs: padded_node, node, base_node"]}
{"id": "C05", "title": "Printing a parsed document never invents or reorders text", "statement": "If KdlDocument::parse(s) (or KdlNode::parse(s)) returns Ok(d) then d.to_string() can be obtained from s by deleting characters only: every printed character occurs in s, in the same order.", "quantifier": "every accepted text s", "why_tests_cant": "The domain is the set of all texts, which is infinite; any test suite samples finitely many of them and the failing inputs are rare combinations of syntax.", "anchors": ["src/document.rs: Display", "src/node.rs: stringify", "src/v2_parser.rs: document, padded_node"]}
{"id": "C06", "title": "Parsing always terminates with Ok or Err", "statement": "KdlDocument::parse, KdlNode::parse, KdlEntry::parse and KdlIdentifier::parse return Ok or Err on every text: they never loop, never trip the combinator library's 'must always consume' assertion and never overflow when negating a number.", "quantifier": "every text s and each of the four parse entry points", "why_tests_cant": "Non-termination or an assertion panic can hide behind any nesting depth or length; a fuzzer only samples.", "anchors": ["src/v2_parser.rs: try_parse and every repeat/repeat_till/separated use"]}
{"id": "C07", "title": "Integer literals denote exactly their mathematical value or are rejected", "statement": "When a text is accepted as an integer value (decimal, 0x, 0o, 0b, optional sign, underscores) the resulting KdlValue::Integer equals the value of the literal in its base with underscores ignored, and lies in the i128 range; it is never truncated or wrapped.", "quantifier": "every integer literal text of any length, in each of the four bases", "why_tests_cant": "Overflow bugs live at boundaries of a 128 bit range and in arbitrarily long literals; examples cannot cover them.", "anchors": ["src/v2_parser.rs: integer_value, decimal, udecimal, hex, octal, binary, signum"]}
{"id": "C08", "title": "Printing a value and parsing it back gives an equal value", "statement": "For every KdlValue v, KdlEntry::parse(v.to_string()) is Ok(e) with e.value() == v, no name and no type annotation.", "quantifier": "every KdlValue (all strings, all i128, all f64, bools, null)", "why_tests_cant": "The value space (all strings, 2^128 integers, 2^64 floats) cannot be enumerated.", "anchors": ["src/value.rs: Display for KdlValue, write_string, is_plain_ident", "src/entry.rs: KdlEntry::parse", "src/v2_parser.rs: value, string, number, keyword"]}
{"id": "C09", "title": "Printing an identifier and parsing it back gives the same name", "statement": "For every string s, KdlIdentifier::parse(KdlIdentifier::from(s).to_string()) is Ok(i) with i.value() == s.", "quantifier": "every string s", "why_tests_cant": "All strings; escaping bugs affect single code points anywhere in the string.", "anchors": ["src/identifier.rs: From<&str>, Display, parse", "src/value.rs: write_string, is_plain_ident"]}
{"id": "C10", "title": "Programmatically built documents survive printing and parsing", "statement": "A document built with KdlNode::new, KdlEntry::new/new_prop, set_ty, push and ensure_children prints to a text that KdlDocument::parse accepts, and the parsed document has the same node names, type annotations, entries (order, names, values) and children.", "quantifier": "every tree of nodes of any depth and width with arbitrary names, types and values", "why_tests_cant": "Trees are unbounded and the interaction of separators between neighbouring nodes depends on the whole shape.", "anchors": ["src/node.rs: KdlNode::new, stringify", "src/entry.rs: KdlEntry::new, new_prop, Display", "src/document.rs: stringify", "src/v2_parser.rs: document"]}
{"id": "C11", "title": "Reparsing the printed text of a parsed document is stable", "statement": "If KdlDocument::parse(s) is Ok(d) then KdlDocument::parse(d.to_string()) is Ok(d2) and d2 has the same names, types, values, entry order and children as d.", "quantifier": "every accepted text s", "why_tests_cant": "The domain is the set of all texts, which is infinite; any test suite samples finitely many of them and the failing inputs are rare combinations of syntax.", "anchors": ["src/document.rs: parse, Display", "src/v2_parser.rs: base_node (terminator handling)"]}
{"id": "C12", "title": "autoformat keeps the data", "statement": "KdlDocument::autoformat_config (any configuration) leaves node names, type annotations, entry names, entry values, entry order, node order and child structure unchanged.", "quantifier": "every document and every FormatConfig", "why_tests_cant": "Unbounded trees and arbitrary formatting fields.", "anchors": ["src/document.rs: autoformat_config", "src/node.rs: autoformat_config", "src/entry.rs: autoformat", "src/identifier.rs: autoformat"]}
{"id": "C13", "title": "autoformat is idempotent", "statement": "Running autoformat twice with the same configuration gives the same document (and the same text) as running it once.", "quantifier": "every document and every FormatConfig", "why_tests_cant": "Formatting fields are arbitrary strings; idempotence must hold for all of them at once.", "anchors": ["src/fmt.rs: autoformat_leading, autoformat_trailing", "src/node.rs: autoformat_config", "src/document.rs: autoformat_config"]}
{"id": "C14", "title": "Autoformatted documents print to valid KDL with the same data", "statement": "After autoformat, to_string() is accepted by KdlDocument::parse and the parsed document has the same data.", "quantifier": "every document obtained by parsing or building, every whitespace indent", "why_tests_cant": "Needs the printer and the parser to agree on all documents.", "anchors": ["src/document.rs: autoformat, autoformat_no_comments, Display", "src/node.rs: autoformat_config, stringify"]}
{"id": "C15", "title": "autoformat preserves comments", "statement": "autoformat ('making everything nice while preserving comments') keeps every comment of a parsed document in the printed text.", "quantifier": "every accepted text s and every comment in it", "why_tests_cant": "The domain is the set of all texts, which is infinite; any test suite samples finitely many of them and the failing inputs are rare combinations of syntax.", "anchors": ["src/document.rs: autoformat (doc comment)", "src/node.rs: autoformat_config", "src/fmt.rs: autoformat_leading, autoformat_trailing"]}
{"id": "C16", "title": "autoformat_no_comments removes every comment", "statement": "After autoformat_no_comments on a document whose entries do not ask to keep their format, the formatting fields contain only whitespace: no comment text is printed.", "quantifier": "every document", "why_tests_cant": "Comments may sit in any of a dozen formatting fields at any depth.", "anchors": ["src/document.rs: autoformat_no_comments", "src/node.rs: autoformat_config", "src/fmt.rs"]}
{"id": "C17", "title": "clear_format_recursive makes documents that differ only in formatting equal", "statement": "If two documents have the same data (names, types, entries, values, children) then after clear_format_recursive on both they compare equal with ==.", "quantifier": "every pair of documents with the same data", "why_tests_cant": "Quantifies over pairs of documents; formatting fields are arbitrary.", "anchors": ["src/document.rs: clear_format_recursive, PartialEq", "src/node.rs: clear_format_recursive", "src/entry.rs: clear_format"]}
{"id": "C18", "title": "A document with cleared formatting still prints valid KDL", "statement": "After clear_format_recursive, to_string() is accepted by KdlDocument::parse and has the same data.", "quantifier": "every parsed document", "why_tests_cant": "Depends on separators between all neighbouring nodes.", "anchors": ["src/document.rs: clear_format_recursive, stringify", "src/node.rs: stringify"]}
{"id": "C19", "title": "Property lookup returns the last duplicate, argument lookup the n-th argument", "statement": "node.get(key) returns the value of the last entry named key (None if absent); node.get(i) returns the value of the i-th entry without a name. entry, get_mut, entry_mut and indexing agree with get.", "quantifier": "every node, every key, every index", "why_tests_cant": "All interleavings of arguments and duplicated properties.", "anchors": ["src/lib.rs (Quirks/Properties)", "src/node.rs: entry_impl, entry_mut_impl, get, get_mut, Index"]}
{"id": "C20", "title": "insert by property name behaves like a map update", "statement": "node.insert(key, e): afterwards get(key) is e's value; if the key existed the entry that get saw is replaced in place and returned, otherwise e is appended and None returned; all other keys, all arguments and the number of other entries are unchanged; it panics exactly when e carries a different name.", "quantifier": "every node, key and entry", "why_tests_cant": "Frame conditions quantify over all other keys and positions.", "anchors": ["src/node.rs: insert, insert_impl"]}
{"id": "C21", "title": "remove by property name removes what get finds", "statement": "If node.get(key) is Some then node.remove(key) returns an entry with that key and that value, the returned entry is no longer in the node, and other keys and all arguments are unchanged; if get(key) is None remove returns None and changes nothing.", "quantifier": "every node (including parsed ones) and key", "why_tests_cant": "Quantifies over all nodes, including every textual spelling of the key.", "anchors": ["src/node.rs: remove, remove_impl", "src/identifier.rs: PartialEq"]}
{"id": "C22", "title": "Inserting and removing arguments by index", "statement": "node.insert(i, e) with i <= number of arguments makes e the i-th argument and shifts later arguments by one, keeping properties and their order; it panics exactly when e is named or i is larger. node.remove(i) removes exactly the i-th argument and panics exactly when i is out of range. remove(i) after insert(i, e) gives back e and the original entries.", "quantifier": "every node, index and entry", "why_tests_cant": "All interleavings of properties and arguments.", "anchors": ["src/node.rs: insert_impl, remove_impl"]}
{"id": "C23", "title": "Mutable indexing touches exactly one value", "statement": "node[key] = v: afterwards get(key) is v, every other key and every argument keep their value; if the key was absent exactly one property is appended. node[i] = v changes exactly argument i.", "quantifier": "every node, key, index, value", "why_tests_cant": "Frame conditions over all other keys.", "anchors": ["src/node.rs: IndexMut<&str>, IndexMut<usize>, get_mut"]}
{"id": "C24", "title": "Document lookups are consistent with each other", "statement": "doc.get(name) is the first node with that name; get_arg(name) is the first item of iter_args(name); iter_args lists exactly the unnamed entry values of that node in order; iter_dash_args lists the first argument of each child named '-' that has one, in order; get_mut / get_arg_mut change only that node.", "quantifier": "every document and name", "why_tests_cant": "All documents and duplicate-name patterns.", "anchors": ["src/document.rs: get, get_mut, get_arg, get_arg_mut, iter_args, iter_dash_args"]}
{"id": "C25", "title": "Equality is an equivalence relation and agrees with hashing", "statement": "== on KdlValue, KdlIdentifier, KdlEntry, KdlNode and KdlDocument is reflexive, symmetric and transitive (including NaN), and equal values feed the hasher identically.", "quantifier": "every pair and triple of values, identifiers, entries, nodes, documents", "why_tests_cant": "2^64 floats and unbounded trees.", "anchors": ["src/value.rs: PartialEq, Hash, normalize_float", "src/identifier.rs, src/entry.rs, src/node.rs, src/document.rs: PartialEq, Hash"]}
{"id": "C26", "title": "Ordering of values is consistent with equality", "statement": "For KdlValues a and b, a.partial_cmp(b) == Some(Equal) exactly when a == b (the contract of PartialOrd).", "quantifier": "every pair of KdlValues", "why_tests_cant": "All pairs of floats, including non-finite ones.", "anchors": ["src/value.rs: derive(PartialOrd), PartialEq"]}
{"id": "C27", "title": "Equality ignores source spans only", "statement": "Changing spans with set_span never changes ==; two identifiers, entries, nodes or documents that compare equal print the same text when their float values print the same.", "quantifier": "every document pair", "why_tests_cant": "All trees and all formatting fields.", "anchors": ["src/identifier.rs, src/entry.rs, src/node.rs, src/document.rs: PartialEq, Display"]}
{"id": "C28", "title": "Quoted strings decode escapes correctly", "statement": "A single-line quoted string consisting of plain characters, the escapes \\\\ \\\" \\b \\f \\n \\r \\t \\s, \\u{X} and whitespace escapes is accepted and its value is the concatenation of the decoded pieces.", "quantifier": "every sequence of such pieces of any length", "why_tests_cant": "Arbitrary sequences of escapes.", "anchors": ["src/v2_parser.rs: quoted_string, string_char, escaped_char, ws_escape"]}
{"id": "C29", "title": "Multi-line strings are dedented and newline-normalised", "statement": "A multi-line quoted (or raw) string whose lines all start with the whitespace that precedes the closing quotes (lines of whitespace only count as empty lines, whatever they contain) has as value the lines without that prefix joined by single line feeds, whichever KDL newline sequence separates them in the text.", "quantifier": "every prefix, every list of lines, every choice of newline sequences", "why_tests_cant": "Arbitrary numbers of lines and prefixes.", "anchors": ["src/v2_parser.rs: quoted_string (multi-line branch), empty_line, raw_string"]}
{"id": "C30", "title": "Raw strings are verbatim", "statement": "#\"body\"# with n hashes is accepted and its value is body exactly, provided body contains no newline, no disallowed code point, no quote followed by n hashes, and is not a single quote.", "quantifier": "every body and every n >= 1", "why_tests_cant": "Bodies and hash counts are unbounded.", "anchors": ["src/v2_parser.rs: raw_string"]}
{"id": "C31", "title": "Block comments nest and count as whitespace", "statement": "A text /*...*/ with properly nested inner comments, of any depth, is consumed as one piece of whitespace; an unterminated one is a parse error.", "quantifier": "every nesting structure", "why_tests_cant": "Nesting depth is unbounded.", "anchors": ["src/v2_parser.rs: multi_line_comment, commented_block, ws"]}
{"id": "C32", "title": "Slashdash removes exactly the next element", "statement": "In `name /-E F` (E, F any printed entries) the document contains F and not E; `/-N` before a node removes the whole node including its children; `/-{...}` removes the children block.", "quantifier": "every entry, node or children block text", "why_tests_cant": "E and N range over all well-formed elements.", "anchors": ["src/v2_parser.rs: slashdash, slashdashed_entries, slashdashed_children, nodes, node"]}
{"id": "C33", "title": "Reserved words and number-like texts are never bare identifiers", "statement": "The texts true, false, null, inf, -inf, nan and any text that starts like a number are rejected by KdlIdentifier::parse; an accepted unquoted identifier contains no whitespace, newline, (){}[];\"#/\\= or disallowed code point and its value equals its text.", "quantifier": "every text", "why_tests_cant": "The domain is the set of all texts, which is infinite; any test suite samples finitely many of them and the failing inputs are rare combinations of syntax.", "anchors": ["src/v2_parser.rs: identifier_string, unambiguous_ident, signed_ident, dotted_ident, identifier_char"]}
{"id": "C34", "title": "Changing a value or name is visible in the printed text", "statement": "After entry.set_value(v) (or get_mut / index assignment) on any entry, printing the entry and parsing it back yields v; likewise identifier.set_value.", "quantifier": "every entry (parsed or built) and every new value", "why_tests_cant": "All entries times all values.", "anchors": ["src/entry.rs: set_value, value_mut, Display", "src/identifier.rs: set_value, Display", "src/node.rs: get_mut, IndexMut"]}
{"id": "C35", "title": "ensure_v2 keeps the data and the values that are printed", "statement": "ensure_v2 on a document leaves names, types, values, entry order and children unchanged and printing an entry of a parsed v2 document after ensure_v2 still denotes the same value; ensure_v2 is idempotent on names, types and values.", "quantifier": "every document; every parsed v2 entry", "why_tests_cant": "All documents and textual representations.", "anchors": ["src/entry.rs: ensure_v2", "src/node.rs: ensure_v2", "src/document.rs: ensure_v2"]}
{"id": "C36", "title": "Spans of a parsed document point at the text they describe", "statement": "After KdlDocument::parse(s), for every identifier (node names, type annotations, property names) the slice of s selected by its span is the identifier's own text; entry, node and document spans lie inside s.", "quantifier": "every accepted text s and every identifier/entry/node in it", "why_tests_cant": "The domain is the set of all texts, which is infinite; any test suite samples finitely many of them and the failing inputs are rare combinations of syntax.", "anchors": ["src/v2_parser.rs: span_from_checkpoint, identifier, value, node_entry, base_node, nodes", "src/identifier.rs: span"]}
{"id": "C37", "title": "keep_format protects an entry's text across autoformat", "statement": "An entry on which keep_format was called keeps its leading text and value text through autoformat, however many times autoformat runs.", "quantifier": "every entry and every number of autoformat runs", "why_tests_cant": "All formatting fields, any number of repetitions.", "anchors": ["src/entry.rs: keep_format, autoformat"]}
{"id": "C38", "title": "Entries keep their textual order and duplicates", "statement": "Parsing a node text made of a name followed by printed entries yields exactly those entries, in the same order, including duplicated properties.", "quantifier": "every list of entries", "why_tests_cant": "Lists of any length with arbitrary duplicates.", "anchors": ["src/lib.rs (Quirks/Properties)", "src/v2_parser.rs: base_node, node_entry"]}
{"id": "C39", "title": "A failed parse reports at least one diagnostic and a successful one none", "statement": "KdlDocument::parse (and the node/entry/identifier versions) returns Ok exactly when parsing succeeds without any recorded error, independently of how error recovery resumes; whenever it returns Err the error carries at least one diagnostic.", "quantifier": "every text and every recovery behaviour", "why_tests_cant": "Error recovery interacts with backtracking on arbitrary texts.", "anchors": ["src/v2_parser.rs: try_parse, failure_from_errs, resume_after_cut"]}
{"id": "C40", "title": "Format configuration builder setters are independent and last-call-wins", "statement": "Each FormatConfigBuilder setter changes exactly its own field, setters for different fields commute, a repeated setter keeps the last value, the maybe_ variants with None change nothing, and build() returns the accumulated configuration.", "quantifier": "every sequence of setter calls", "why_tests_cant": "Sequences of any length.", "anchors": ["src/fmt.rs: FormatConfigBuilder, FormatConfig::default"]}
{"id": "C41", "title": "len and is_empty describe the printed text", "statement": "KdlDocument::len, KdlEntry::len and KdlIdentifier::len equal the UTF-8 length of to_string(), is_empty is len()==0, and an identifier or entry without custom formatting is never empty.", "quantifier": "every document, entry, identifier", "why_tests_cant": "All trees and strings.", "anchors": ["src/document.rs: len, is_empty", "src/entry.rs: len, is_empty", "src/identifier.rs: len, is_empty"]}
{"id": "C42", "title": "Disallowed code points never enter through literal text", "statement": "If a text is accepted by KdlIdentifier::parse as an unquoted or raw single-line string, neither the text nor the value contains a disallowed literal code point; single-line quoted strings only contain them in the value when written as \\u{...} escapes.", "quantifier": "every accepted text", "why_tests_cant": "The domain is the set of all texts, which is infinite; any test suite samples finitely many of them and the failing inputs are rare combinations of syntax.", "anchors": ["src/v2_parser.rs: is_disallowed_unicode, disallowed_unicode, string_char, raw_string, identifier_char"]}
{"id": "C43", "title": "Deserialising groups repeated nodes without loss", "statement": "kdl::de maps a document to one entry per distinct node name, in order of first appearance, each carrying all nodes of that name in document order; no node is dropped or duplicated.", "quantifier": "every document", "why_tests_cant": "All duplicate-name patterns.", "anchors": ["src/de.rs: DocumentDeserializer, DocumentMapAccess, NodeGroupDeserializer"]}
{"id": "C44", "title": "Serialising then deserialising gives back the value", "statement": "For every value x of a type built from booleans, integers, floats, characters, strings, unit, options, newtypes, sequences, tuples, string-keyed maps, structs (including fields renamed to the argument names #0, #1, ..., #args, #rest and the property names #@p) and enums, with derived Serialize and Deserialize, if kdl::se::to_string(x) succeeds then kdl::de::from_str of that text succeeds and gives x back.", "quantifier": "every value of every such type, at any nesting", "why_tests_cant": "Unbounded nesting of types and all field values.", "anchors": ["src/se.rs: to_string, to_document", "src/de.rs: from_str"]}
{"id": "C45", "title": "Serialising never silently drops data", "statement": "kdl::se::to_document either returns an error or a document in which every field of the value is represented (false and null flags excepted).", "quantifier": "every serialisable value", "why_tests_cant": "All shapes of the serde data model.", "anchors": ["src/se.rs: DocumentSerializer, StructVariantSerializer, NodeValueSerializer"]}
{"id": "C46", "title": "Deserialising integers never truncates", "statement": "Deserialising an integer value into i8..i64, u8..u64 gives exactly that integer or an error.", "quantifier": "every i128 value and every target width", "why_tests_cant": "2^128 values.", "anchors": ["src/de.rs: ValueDeserializer"]}
{"id": "C47", "title": "Every text of the document grammar is accepted with its data", "statement": "A text built by the rules of the KDL 2 grammar (white space, nested comments, line continuations, type annotations, strings of every form, numbers, keywords, properties, slashdashed entries, blocks and nodes, children, terminators) is accepted by KdlDocument::parse, and the names, annotations, values, order and nesting of the resulting document are those the rules assign to it; no text is given two different meanings.", "quantifier": "every derivation of the grammar", "why_tests_cant": "The domain is the set of all texts, which is infinite; any test suite samples finitely many of them and the failing inputs are rare combinations of syntax.", "anchors": ["src/v2_parser.rs: document, nodes, node, base_node, node_entry, slashdash, line_space, node_space"]}
{"id": "C48", "title": "The node mutators change exactly what they name", "statement": "retain(p) keeps exactly the entries satisfying p, in order; clear removes all entries; push adds one at the end (next argument index, or the value of its property name); set_children, ensure_children, clear_children and set_name / set_ty change only the children, name or annotation; sort_by and sort_by_key rearrange the entries into the one stably sorted order. Everything else of the node is left as it was.", "quantifier": "every node, predicate, ordering, entry, document and name", "why_tests_cant": "All nodes, predicates and orderings.", "anchors": ["src/node.rs: retain, clear, push, len, is_empty, set_children, ensure_children, clear_children, iter_children, set_name, set_ty, sort_by, sort_by_key"]}
{"id": "C49", "title": "Serialised text parses to the serialised document", "statement": "Whenever kdl::se::to_string succeeds, the text it returns is accepted by KdlDocument::parse, and the names, annotations, values, order and nesting of the parsed document are those of the document kdl::se::to_document returns.", "quantifier": "every serialisable value", "why_tests_cant": "All shapes of the serde data model and all strings.", "anchors": ["src/se.rs: to_string, to_document", "src/document.rs: fmt::Display for KdlDocument, KdlDocument::parse"]}
{"id": "C50", "title": "The parse functions accept exactly the texts of the grammar", "statement": "KdlDocument::parse, KdlNode::parse, KdlEntry::parse and KdlIdentifier::parse accept a text if and only if the written-down grammar derives it, and then the names, annotations, values, order and nesting of the result are exactly those of the derivation; every other text is an Err. A byte order mark in front of a document changes nothing.", "quantifier": "every text and every data", "why_tests_cant": "The domain is the set of all texts, which is infinite; any test suite samples finitely many of them and the failing inputs are rare combinations of syntax.", "anchors": ["src/v2_parser.rs: document, nodes, base_node, node_entry, padded_node, padded_node_entry, identifier, slashdash", "src/document.rs: KdlDocument::parse", "src/node.rs: KdlNode::parse", "src/entry.rs: KdlEntry::parse"]}
{"id": "C51", "title": "Nodes need a separator", "statement": "In a text accepted by KdlDocument::parse, the number of semicolons and newline characters is at least the number of top-level nodes minus one: two nodes are never read from a text without a terminator between them.", "quantifier": "every accepted text", "why_tests_cant": "The domain is the set of all texts, which is infinite; any test suite samples finitely many of them and the failing inputs are rare combinations of syntax.", "anchors": ["src/v2_parser.rs: nodes, node_terminator"]}
{"id": "C52", "title": "Editing a parsed document and printing it gives valid KDL with the edited data", "statement": "Parse a document, exchange names, type annotations and entries of its nodes at any depth for others (each printable on its own), and print it: the text is accepted by KdlDocument::parse and has the data of the edited document, whatever comments and formatting the original text contained.", "quantifier": "every accepted text and every such edit", "why_tests_cant": "The domain is the set of all texts, which is infinite; any test suite samples finitely many of them and the failing inputs are rare combinations of syntax.", "anchors": ["src/document.rs: KdlDocument::parse, fmt::Display for KdlDocument", "src/node.rs: KdlNode::set_name, set_ty, push, insert, remove, retain, clear, stringify", "src/entry.rs: fmt::Display for KdlEntry"]}
{"id": "C53", "title": "Any sequence of API changes to a parsed document prints as valid KDL", "statement": "Parse a document, then apply any number of set_name, set_ty, push, insert, remove, retain and clear on its nodes and of insert, push, remove, retain and reordering on its vectors of nodes, at any depth, with new nodes and entries built through the constructors, and print it: the text is accepted by KdlDocument::parse and has the data of the changed document.", "quantifier": "every accepted text and every finite sequence of changes", "why_tests_cant": "Unbounded sequences of mutations over arbitrary formatting.", "anchors": ["src/document.rs: KdlDocument::parse, nodes_mut, fmt::Display for KdlDocument", "src/node.rs: KdlNode::new, set_name, set_ty, push, insert, remove, retain, clear, children_mut", "src/entry.rs: KdlEntry::new, new_prop"]}
{"id": "C54", "title": "Nodes are read into structs, flags, sequences and enums as documented", "statement": "Deserialising a node into a struct gives each field its documented source: #name, #type, #args, #rest (the arguments without a field of their own), #N, #N#type, #@p and #@p#type the name, annotation, arguments and properties so named, and any other field the property or the children of that name. Missing fields are None for options, false for plain flags, and errors otherwise; two sources for one field are an error. A node without contents is the flag true; a sequence is read from the children if there are any, else from the arguments; an enum is read from the only child (or a string, or a single property, or else the node itself), whose name is the variant.", "quantifier": "every struct with distinct field names and every node, if its property and child names do not begin with # and its property names do not end in #type", "why_tests_cant": "All struct types and all nodes.", "anchors": ["src/de.rs: NodeDeserializer, NodeMapAccess, deserialize_bool, deserialize_seq, deserialize_enum, OmittedChildDeserializer"]}
{"id": "C55", "title": "Diagnostics point into the text", "statement": "Whenever KdlDocument::parse, KdlNode::parse, KdlEntry::parse or KdlIdentifier::parse returns an error, the span of each of its diagnostics lies inside the input and begins and ends on character boundaries, so slicing the input with it never panics.", "quantifier": "every text and every way error recovery might resume", "why_tests_cant": "The domain is the set of all texts, which is infinite; any test suite samples finitely many of them and the failing inputs are rare combinations of syntax.", "anchors": ["src/v2_parser.rs: try_parse, failure_from_errs, from_recoverable_error, span_from_checkpoint, resume_after_cut, node_children, base_node, node_entry", "src/error.rs: KdlDiagnostic"]}
{"id": "C56", "title": "Formatting repairs any document made through the API", "statement": "Take any documents, nodes, entries and identifiers that were parsed or built with constructors, and apply any sequence of set_name, set_ty, set_value, push, insert, remove, retain, clear, assignment by index or key, set_children, clear_children, ensure_children, clear_format, clear_format_recursive, autoformat_config, ensure_v2, and any rearrangement of the vectors behind entries_mut and nodes_mut, moving parts freely between documents. If the strings and values of the resulting document can be written, then autoformat followed by printing gives a text that is accepted by KdlDocument::parse and has the data of the document. The same holds for KdlNode and KdlEntry. Excluded: parsed texts with a slashdash between nodes or a byte order mark, parsed single nodes with a comment after their terminator, keep_format, and setting format records or representations by hand.", "quantifier": "every document that can be made this way and every configuration whose indent is KDL white space and which does not keep representations", "why_tests_cant": "Unbounded sequences of calls over arbitrary texts, with parts moved between documents.", "anchors": ["src/document.rs: KdlDocument::autoformat_config, nodes_mut, ensure_v2, clear_format_recursive, fmt::Display for KdlDocument", "src/node.rs: KdlNode::autoformat_config, entries_mut, insert, set_children, ensure_children", "src/entry.rs: KdlEntry::autoformat, set_value", "src/fmt.rs: autoformat_leading, autoformat_trailing"]}
{"id": "C57", "title": "Float literals denote the nearest float", "statement": "Every float literal of the grammar (optional sign, digits with underscores, and a fraction or an exponent or both) is accepted by KdlEntry::parse, and its value is the f64 nearest to the number written: ties go to the even significand, numbers that are too large become infinite, and the sign is that of the literal, also for zero. Conversely every float of a parsed document was written as such a literal or as #inf, #-inf or #nan.", "quantifier": "every float literal, every accepted document", "why_tests_cant": "Infinitely many literals; correct rounding has to hold at all ties and boundaries.", "anchors": ["src/v2_parser.rs: number, float_value, float, udecimal, decimal, signum"]}
{"id": "C58", "title": "Floats are printed with the shortest digits that are read back", "statement": "Display for KdlValue writes a finite float as a float literal whose nearest float is that float. No literal that denotes it has fewer significant digits, and none with as few digits is nearer to it. KdlEntry::parse reads the text back as the same float, bit for bit, also for -0.0, subnormal and infinite floats (any NaN as the standard one).", "quantifier": "every f64", "why_tests_cant": "There are 2^64 floats, and infinitely many competing literals for each.", "anchors": ["src/value.rs: fmt::Display for KdlValue", "src/v2_parser.rs: float_value"]}
{"id": "C59", "title": "Numbers are read into f64 fields exactly or as the nearest float", "statement": "Deserialising into f64 gives a float unchanged, and an integer between i64::MIN and u64::MAX as the float nearest to it; any other integer, string, boolean or null is an error.", "quantifier": "every deserializer of the crate and every value", "why_tests_cant": "All integers, with rounding above 2^53.", "anchors": ["src/de.rs: deserialize_any of ValueDeserializer, NodeDeserializer"]}
{"id": "C60", "title": "Changing the text at one place changes the data at that place only", "statement": "In a text accepted by KdlDocument::parse, at any depth, exchange the text of one node, of one entry or of one name for the text of another node, entry or name: the new text is accepted, and its document differs from the old one in that place only.", "quantifier": "every accepted text, every place in it and every replacement", "why_tests_cant": "The domain is the set of all texts, which is infinite; any test suite samples finitely many of them and the failing inputs are rare combinations of syntax.", "anchors": ["src/v2_parser.rs: document, nodes, base_node, node_entry, node_children"]}
{"id": "C61", "title": "Documents can be concatenated", "statement": "If two texts are accepted by KdlDocument::parse, so is the first followed by an empty line and the second, and its nodes are those of the first text followed by those of the second.", "quantifier": "every two accepted texts, the second without byte order mark", "why_tests_cant": "Pairs of arbitrary texts, which may end or begin anywhere in a line, comment or line continuation.", "anchors": ["src/v2_parser.rs: document, nodes, node_terminator, line_space, escline"]}
{"id": "C62", "title": "A document can be put into a children block", "statement": "If a text is accepted by KdlDocument::parse, then a name followed by {, the text on lines of its own, and } is accepted, and gives one node with this name whose children are the nodes of the text.", "quantifier": "every accepted text without byte order mark, every name", "why_tests_cant": "The domain is the set of all texts, which is infinite; any test suite samples finitely many of them and the failing inputs are rare combinations of syntax.", "anchors": ["src/v2_parser.rs: document, nodes, node_children, final_node, node_terminator"]}
{"id": "C63", "title": "Lookups see the data and nothing else", "statement": "KdlNode::get returns the value of the argument with the index, or of the last property with the name; KdlDocument::get, get_arg, iter_args and iter_dash_args answer by the first node with the name, its arguments, and the first arguments of its children called -. All answers depend only on names, values and order, not on formatting or spelling, so they are the ones the KDL grammar predicts for a parsed text, and are kept by printing and parsing a built document. The entries and nodes built from Rust values with From hold exactly these values.", "quantifier": "every document, node, index and name", "why_tests_cant": "All documents and all ways of formatting them.", "anchors": ["src/node.rs: KdlNode::get, iter_children", "src/document.rs: KdlDocument::get, get_arg, iter_args, iter_dash_args", "src/value.rs: is_string, is_integer, is_float, is_bool, is_null, From impls", "src/entry.rs: From impls"]}
{"id": "C64", "title": "Documented texts are accepted", "statement": "Every text that is a document by the grammar in the comments of the parser (document, nodes, base-node, node-children, slashdash, type, prop, value, node-terminator, over the lexical rules of C28–C31, C42 and C51) is accepted by KdlDocument::parse, and the document has the data that the grammar gives the text. In particular the documented grammar is unambiguous.", "quantifier": "every text and every derivation in the documented grammar", "why_tests_cant": "The domain is the set of all texts, which is infinite; any test suite samples finitely many of them and the failing inputs are rare combinations of syntax.", "anchors": ["src/v2_parser.rs: document, nodes, base_node, final_node, node_children, slashdash, node_terminator, ty, prop, value (comments and code)"]}
{"id": "C65", "title": "Accepted texts are documented ones with spaces missing", "statement": "If KdlDocument::parse accepts a text, then spaces and line feeds can be put into it so that it becomes a document by the grammar in the comments of the parser, with the same data. So the parser accepts nothing beyond the documented grammar but missing separators.", "quantifier": "every accepted text", "why_tests_cant": "The domain is the set of all texts, which is infinite; any test suite samples finitely many of them and the failing inputs are rare combinations of syntax.", "anchors": ["src/v2_parser.rs: document, nodes, base_node, final_node, node_children, slashdash, node_entry (comments and code)"]}
{"id": "C66", "title": "Line breaks are interchangeable", "statement": "Exchange each line break of a text (CR, LF, CRLF, VT, FF, NEL, LS or PS) for any other line break, wherever it stands: between nodes, in comments, line continuations, multi-line strings or escapes. KdlDocument::parse, KdlNode::parse, KdlEntry::parse and KdlIdentifier::parse accept the new text if and only if they accept the old one, with the same data. In particular converting LF to CRLF changes nothing.", "quantifier": "every text and every choice of line breaks", "why_tests_cant": "The domain is the set of all texts, which is infinite; any test suite samples finitely many of them and the failing inputs are rare combinations of syntax.", "anchors": ["src/v2_parser.rs: newline, escline, single_line_comment, multi_line_comment, node_terminator, quoted_string, multi_line_string_body, raw_string"]}
{"id": "C67", "title": "The parse functions agree", "statement": "What KdlNode::parse accepts is accepted by KdlDocument::parse and gives a document with this one node, and conversely; what KdlEntry::parse accepts can be written behind a name and a space and is the only entry of that node; what KdlIdentifier::parse accepts is accepted as a node and as an argument, with this string as name and value.", "quantifier": "every text", "why_tests_cant": "The domain is the set of all texts, which is infinite; any test suite samples finitely many of them and the failing inputs are rare combinations of syntax.", "anchors": ["src/v2_parser.rs: document, padded_node, padded_node_entry, identifier", "src/node.rs: KdlNode::parse", "src/entry.rs: KdlEntry::parse", "src/identifier.rs: KdlIdentifier::parse"]}
{"id": "C68", "title": "Reprinted documents never change silently", "statement": "Print a document that KdlDocument::parse returned. If KdlDocument::parse accepts the printed text at all, the new document has the same data as the first.", "quantifier": "every accepted text", "why_tests_cant": "The domain is the set of all texts, which is infinite; any test suite samples finitely many of them and the failing inputs are rare combinations of syntax.", "anchors": ["src/v2_parser.rs: document", "src/document.rs: Display", "src/node.rs: Display"]}
{"id": "C69", "title": "The v1 fallback changes nothing for v2 texts", "statement": "With the feature v1-fallback, KdlDocument::parse, KdlNode::parse, KdlEntry::parse and KdlIdentifier::parse return for a text that is accepted as v2 exactly what they return without the feature. Any other text that is accepted as v1 gives the v1 result, with the data of v1. A text is rejected exactly if it is accepted neither as v2 nor as v1; the diagnostics are then those of v2, except that documents that look like v1 (first line mentions kdl-version 1, or the text contains an unmarked keyword after a space, r#\", or a quotation mark at the end of a line after a space) get those of v1.", "quantifier": "every text, every behaviour of the v1 parser", "why_tests_cant": "All texts and all results of a parser in another crate.", "anchors": ["src/document.rs: KdlDocument::parse, parse_v1, detect_v1", "src/node.rs: KdlNode::parse, parse_v1", "src/entry.rs: KdlEntry::parse, parse_v1", "src/identifier.rs: KdlIdentifier::parse, parse_v1", "src/value.rs: From<kdlv1::KdlValue>"]}
{"id": "C70", "title": "Converting v1 to v2 keeps the data", "statement": "With the feature v1, parse_v1 and ensure_v2 keep all names, type annotations, values, the order and the children that the v1 parser found, and KdlDocument::v1_to_v2 returns a text that KdlDocument::parse_v2 accepts, with this data.", "quantifier": "every v1 document", "why_tests_cant": "All v1 documents, with all their comments, terminators and spellings of strings.", "anchors": ["src/document.rs: v1_to_v2, ensure_v2, From<kdlv1::KdlDocument>", "src/node.rs: ensure_v2, From<kdlv1::KdlNode>", "src/entry.rs: ensure_v2, From<kdlv1::KdlEntry>", "src/identifier.rs: From<kdlv1::KdlIdentifier>", "src/value.rs: From<kdlv1::KdlValue>"]}
{"id": "C71", "title": "Converting v2 to v1 keeps the data", "statement": "With the feature v1, ensure_v1 keeps all names, type annotations, values, the order and the children of a document, and the recorded space around entries and nodes; a last node without recorded layout gets a line break behind it. Afterwards the text of each string value is a v1 string with the same value, keywords are written in the v1 way, and every number is written with its value.", "quantifier": "every document", "why_tests_cant": "All documents and all spellings of their values.", "anchors": ["src/document.rs: v2_to_v1, ensure_v1", "src/node.rs: ensure_v1", "src/entry.rs: ensure_v1"]}
{"id": "C72", "title": "The language server reports on the current text", "statement": "After any sequence of opened, changed, saved and closed notifications, kdl-lsp answers a diagnostics request for a document with an empty report if the document is not open or KdlDocument::parse accepts its current text, and otherwise with one item per diagnostic of KdlDocument::parse for the current text, in order. It does not panic.", "quantifier": "every history of notifications, every document", "why_tests_cant": "All histories of an editor.", "anchors": ["tools/kdl-lsp/src/main.rs: did_open, did_change, did_save, did_close, diagnostic"]}
{"id": "C73", "title": "The language server shows diagnostics where they are", "statement": "Each item of a report has as its range the LSP positions (lines ended by LF, CR or CRLF; columns in UTF-16 code units) of the two ends of the text that the diagnostic points at. Later places have later positions.", "quantifier": "every text of less than 4 GiB, every diagnostic", "why_tests_cant": "All texts with all line ends and characters of one to four bytes.", "anchors": ["tools/kdl-lsp/src/main.rs: byte_to_position, diagnostic"]}
{"id": "C74", "title": "Printed data is read as the same data or not at all", "statement": "If the text printed for a document built through the API (as it is or after autoformat with any white-space indent and level), for a parsed document after formatting without comments, for a serialised value, for a value, for a name, or for a built entry after set_value is accepted by the corresponding parse function, then it is read as the same data. The text may be rejected, but it never stands for something else.", "quantifier": "every built document, every parsed document, every serialisable value, every value and name", "why_tests_cant": "The domain is the set of all texts, which is infinite; any test suite samples finitely many of them and the failing inputs are rare combinations of syntax.", "anchors": ["src/document.rs, src/node.rs, src/entry.rs, src/identifier.rs, src/value.rs: Display", "src/se.rs: to_string", "src/v2_parser.rs"]}
{"id": "C75", "title": "Formatting with the feature v1 brings kept entries into v2 form", "statement": "With the feature v1, autoformat keeps all data. An entry that is not kept is formatted as without the feature. A kept entry keeps its leading text, and its value text becomes a v2 text of the same value: keywords get their sign, numbers keep their text, strings are rewritten.", "quantifier": "every document, node and entry, and every format configuration", "why_tests_cant": "The domain is the set of all texts, which is infinite; any test suite samples finitely many of them and the failing inputs are rare combinations of syntax.", "anchors": ["src/entry.rs: autoformat, keep_format, ensure_v2", "src/node.rs: autoformat_config", "src/document.rs: autoformat_config"]}
{"id": "C76", "title": "A diagnostic says what is wrong", "statement": "Every diagnostic of a failed parse has a message and a label.", "quantifier": "every text, all four parse functions", "why_tests_cant": "The domain is the set of all texts, which is infinite; any test suite samples finitely many of them and the failing inputs are rare combinations of syntax.", "anchors": ["src/v2_parser.rs: try_parse, From<KdlParseError>, lbl, msg, resume_after_cut", "src/error.rs: KdlDiagnostic"]}
{"id": "C77", "title": "What is reported about a missing closing brace", "statement": "If the children block of the last node of a text is not closed, and what follows its opening brace is a document by itself and does not start with a byte order mark, KdlDocument::parse fails with a diagnostic that points at this brace, a second one for all that follows it if there is any, and no others.", "quantifier": "every sequence of nodes in front, every node head (annotation, name, entries, white space) and every document in the block", "why_tests_cant": "The domain is the set of all texts, which is infinite; any test suite samples finitely many of them and the failing inputs are rare combinations of syntax.", "anchors": ["src/v2_parser.rs: node_children, base_node, nodes, document"]}
{"id": "C78", "title": "What is reported about a closing brace too many", "statement": "If two accepted documents are joined by a line break and a closing brace, KdlDocument::parse fails with exactly one diagnostic, which points at this brace. If the text after the brace is not accepted, the diagnostics are this one followed by those of that text, moved to where it now stands.", "quantifier": "every accepted text and every text after the brace", "why_tests_cant": "The domain is the set of all texts, which is infinite; any test suite samples finitely many of them and the failing inputs are rare combinations of syntax.", "anchors": ["src/v2_parser.rs: document, nodes"]}
{"id": "C79", "title": "A mistake is reported once", "statement": "No diagnostic of a failed parse is repeated; one missing brace gives at most two diagnostics, also in parts of the text that a slashdash removes.", "quantifier": "every text with one unclosed children block", "why_tests_cant": "The domain is the set of all texts, which is infinite; any test suite samples finitely many of them and the failing inputs are rare combinations of syntax.", "anchors": ["src/v2_parser.rs: slashdashed_children, node_entry, base_node, resume_after_cut"]}
{"id": "C80", "title": "Accepted text in front only moves the diagnostics", "statement": "If KdlDocument::parse accepts a text t, then parsing t, an empty line and any text u succeeds if u alone is accepted, and otherwise reports the diagnostics that u alone would give, at places moved by the length of what precedes u, and no others.", "quantifier": "every accepted text t and every text u without byte order mark", "why_tests_cant": "The domain is the set of all texts, which is infinite; any test suite samples finitely many of them and the failing inputs are rare combinations of syntax.", "anchors": ["src/v2_parser.rs: document, nodes, node, base_node, resume_after_cut, failure_from_errs"]}
{"id": "C81", "title": "Every mistaken name, annotation, key and value is reported", "statement": "If a text would be a document but for some names of nodes, names in type annotations, keys and values, at any depth, that are words of the wrong kind (a reserved word without #, a number with a letter behind it or without its digits, # in front of a word that is no keyword, a number or keyword as the name of a node or a type) or mistaken strings (quoted ones with an escape that does not exist, quoted or raw ones with more text right behind the closing quote, quoted ones that are not closed when the line or the text ends, or three quotation marks without a line break behind them), then KdlDocument::parse reports each of these mistakes exactly once, in the order of the text, at the place of the word, with what was expected there, and nothing else. A mistake in one node hides no mistake in another.", "quantifier": "every text with any number of mistakes at any depth", "why_tests_cant": "The domain is the set of all texts, which is infinite; any test suite samples finitely many of them and the failing inputs are rare combinations of syntax.", "anchors": ["src/v2_parser.rs: node_entry, prop, value, badval, resume_after_cut, number, keyword, identifier_string, failure_from_errs"]}
{"id": "C82", "title": "Errors of deserialisation say where they are", "statement": "If kdl::de::from_str fails, Error::span gives a part of the text. If the text is not a KDL document, it is the place of the first diagnostic, with its label; otherwise it is an entry, a node or an identifier of the document, the one that could not be read, and the label says which of these it is. Where the value of a field has the wrong type or is out of range, it is the first such value.", "quantifier": "every text and every type built from the scalar types, Option, Vec, tuples, maps with string keys, structs and enums", "why_tests_cant": "The domain is the set of all texts, which is infinite; any test suite samples finitely many of them and the failing inputs are rare combinations of syntax.", "anchors": ["src/de.rs: Error::span, Error::with_span, From<KdlError>, from_str, IdentDeserializer, ValueDeserializer, NodeDeserializer, NodeEnumAccess, PropertyEnumAccess"]}
{"id": "C83", "title": "Formatted text has the layout of its data", "statement": "After autoformat_config, the text of a parsed document without comments (or formatted with no_comments) depends only on its data and the configuration: every node stands on a line of its own, indented by indent_level plus its depth; its entries follow, each after one space, written as their values are printed; children stand between a line that ends with { and a line with }, and an empty document or block is an empty line. Two texts with the same data are formatted to the same text.", "quantifier": "every accepted text, every white-space indent and every level", "why_tests_cant": "The domain is the set of all texts, which is infinite; any test suite samples finitely many of them and the failing inputs are rare combinations of syntax.", "anchors": ["src/document.rs: autoformat_config", "src/node.rs: autoformat_config", "src/entry.rs: autoformat", "src/fmt.rs: autoformat_leading, autoformat_trailing", "src/document.rs: stringify", "src/node.rs: stringify"]}
{"id": "C84", "title": "Formatted comments stand on lines of their own, indented like nodes", "statement": "After autoformat_config, the text of a parsed document is the layout of its data (C83) with its comments added: every line of a comment in front of a node stands on a line of its own with the indentation of the node, without the blank lines around it; comments behind the last node of a document or block, and in blocks without nodes, are indented like nodes of the block; a comment between a node and the end of its line follows the node after one space, and the next node follows on the next line.", "quantifier": "every accepted text, every white-space indent, every level, with and without no_comments", "why_tests_cant": "The domain is the set of all texts, which is infinite; any test suite samples finitely many of them and the failing inputs are rare combinations of syntax.", "anchors": ["src/document.rs: autoformat_config", "src/node.rs: autoformat_config", "src/fmt.rs: autoformat_leading, autoformat_trailing", "src/document.rs: stringify", "src/node.rs: stringify"]}
{"id": "C85", "title": "What is shown of a diagnostic is the diagnostic", "statement": "Every diagnostic of a failed KdlDocument::parse is displayed as its message and has exactly one label, its own, at its span; the substitutes 'Unexpected error' and 'here' never appear. If kdl-lsp holds a text that is rejected and does not look like v1, its report has exactly one item per diagnostic of KdlDocument::parse, in order, with the message of the diagnostic, the severity error and the range of its span; if the text looks like v1, it has one item with the message of the v1 parser; if it is accepted, none. For a text with mistaken names, keys and values (C81) these are one item per mistake.", "quantifier": "every text and every document that the language server holds", "why_tests_cant": "All texts with all mistakes in them.", "anchors": ["src/error.rs: Display for KdlDiagnostic, Diagnostic::labels, From<kdlv1::KdlError>", "src/document.rs: parse", "tools/kdl-lsp/src/main.rs: diagnostic"]}
