# Formal model of kdl-rs in Lean 4: design

Target: `/repo` (kdl-rs 6.7.1, default features `span` and `serde`; the optional features `v1` and
`v1-fallback` only in C69–C71).
The Lean project is in `lean/`; every module is under `lean/Verif/`.

* `Model/` transcribes the Rust code, function by function, with file and lines.
* `Spec/` says what is expected, in terms that do not use the model's functions.
* `Lemmas/` contains everything that is only a step towards a property.
* `Props/` contains the property theorems, named after the property (`C07_…`), and
  beside them concrete cases and counterexamples.

`properties.jsonl` states the properties, `MANIFEST.json` gives for each the exact
theorem names and its status, `seeded/LOG.jsonl` the wrong programs tried.

## 1. What is modelled

| Model module | Rust code it follows |
|---|---|
| `Model/Chars.lean` | the character classes of `src/v2_parser.rs` (`is_disallowed_unicode`, `NEWLINES`, `UNICODE_SPACES`, `DISALLOWED_IDENT_CHARS`) and Rust's `char::is_whitespace`, `trim`, `lines` |
| `Model/Value.lean` | `src/value.rs`: `KdlValue`, equality, hashing, ordering, `Display`, `is_plain_ident` |
| `Model/Types.lean` | the data types of `identifier.rs`, `entry.rs`, `node.rs`, `document.rs`, their format records, equality and hashing |
| `Model/Display.lean` | the `Display` implementations (`stringify`) |
| `Model/Fmt.lean` | `src/fmt.rs`; `autoformat*`, `clear_format*`, `keep_format`, `ensure_v2` |
| `Model/Api.lean` | lookup and mutation of `KdlNode`, `KdlDocument`, `KdlEntry`, `KdlIdentifier` |
| `Model/Convert.lean` | the `is_*` tests and `From` conversions of values and entries; `sort_by`, `sort_by_key` (the standard stable sort, by its documentation) |
| `Model/Parser/Basic.lean` | the winnow combinators that `v2_parser.rs` uses |
| `Model/Parser/{Lex,Numbers,Strings,Grammar}.lean` | `src/v2_parser.rs`, function by function; the public `parse` functions |
| `Model/Recover.lean` | the same grammar once more, with recorded errors and `resume_after_cut` |
| `Model/DiagLex.lean`, `Model/Diag.lean` | the same grammar with the diagnostics: messages, labels, help texts, and where each failing parser stops |
| `Model/Ser.lean` | `src/se.rs` on the serde data model |
| `Model/V1.lean` | the features `v1` and `v1-fallback`: the `From<kdlv1::…>` impls, `parse_v1`, `parse` with fallback, `detect_v1`, `ensure_v1`, `v1_to_v2`, `v2_to_v1`; also `detect_v2`, which only tests of the crate call, so that no property depends on it |
| `Model/V1Fmt.lean` | `autoformat` as compiled with the feature `v1`: kept entries are brought into v2 form |
| `Model/Lsp.lean` | `tools/kdl-lsp`: the texts it keeps, diagnostics reports, `byte_to_position` |
| `Model/LspReport.lean` | `src/error.rs`: `Display` and `labels` of diagnostics; `tools/kdl-lsp`: reports with their messages |
| `Model/De.lean` | `src/de.rs`: which visitor method each deserializer calls |
| `Model/DeErr.lean` | `src/de.rs` with its errors: their spans and labels |

Texts are `List Char`: a Rust `str` is a sequence of Unicode scalar values and Lean's
`Char` is exactly that. Byte lengths and offsets are computed with `Char.utf8Size`.

### Parser

A parser is a function `Str → Res α` with `Res = ok value rest | back | cut | crash`.
`back` and `cut` are winnow's `ErrMode::Backtrack` and `Cut`. `crash` is a panic: winnow's
"parser must always consume" assertion, an `unwrap` on `None`, or the recursion budget of
the model running out. C06 proves that `crash` cannot happen, which also shows that the
budgets do not matter (`Lemmas/Parser/Fix.lean` proves the budget-free recursion
equations).

*Error recovery.* In the main model `resume_after_cut(p, r)` is `p`: a `Cut` ends the
parse. That this decides correctly whether `parse` returns `Ok`, and with what, is itself
a property (C39). It is proved against `Model/Recover.lean`, where a parser carries the
regions of the recorded errors and every `resume_after_cut` records and goes on; a `Cut`
error may bring its own region, as in the code. The strict model forgets where a failing
parser stopped, so the places where failing parsers stop and where recovery ends are a
parameter, `Recovery`, constrained only to lie ahead in the input, and the theorems hold
for all its values.

*Diagnostics.* `Model/{DiagLex,Diag}.lean` are the grammar a third time, with the full error
values: messages, labels and help texts, the place where every failing parser stops, and the
recovery parsers themselves. That this is one of the behaviours admitted by `Recovery`, and so
agrees with the strict model, is proved (`parseD_erased`). It is what C76 to C81 are about.

### Floats

An `f64` is its 64-bit pattern; decoding, equality, ordering and truncation are exact
integer computations. Most theorems leave printing and reading decimal texts of finite
floats (Rust's `{:?}` and `str::parse::<f64>`) open, as parameters (class `FloatIO`). Where
they need something of them they assume `LawfulFloatIO`: the printed text has the shape
`-?d+(.d+)?(e-?d+)?` with `.` or `e` present, and is read back with the same bits.

`Model/FloatText.lean` fills these parameters in (`rustFloatIO`): reading rounds to the
nearest float, ties to even, and writing searches for the shortest digits. This is what the
documentation of the standard library promises, not its code. It was compared with Python's
`repr` and `float` on several hundred numbers, ties and boundaries among them.
`rustFloatIO_lawful` proves the assumption, so it can be dropped from every theorem. One
simplification: `f64::from_str` stops counting exponents at about 650000, which shows only
on texts with that many digits. `FloatCast` (`i as f64`) is filled in the same way
(`Model/FloatCast.lean`). `FloatKey` (`f64::to_string` for map keys) is left open.

### serde

A value to be serialised is given by the calls its `Serialize` implementation makes
(`SVal`, the serde data model). A deserializer is a term of `Src`, the method called on it
a term of `Req`, and `Src.request` says which visitor method is called. For round trips
and for reading structs, the visitor generated by `#[derive(Deserialize)]` is modelled by
the type it builds: a struct visitor asks for its fields by name, reports a field that
occurs twice, ignores unknown fields, and uses `None` for an absent `Option`. A map
visitor is that of an insertion-ordered map with `String` keys, where a later entry
replaces the value of an earlier one.

`Model/DeErr.lean` is this model again with errors as values: the span and the label that
`Error::with_span` sets. C82 proves that it reads the same values. The struct visitor here takes
the fields in the order in which they come, as the generated code does, so that it is known which
error is reported. The messages, which are mostly serde's, are not modelled.

### KDL v1

The older crate `kdl` 4.7 that the feature `v1` uses is not in the repository. Its data types
are modelled by what their accessors return, and its parsers, `From<&str>` for identifiers
and `Display` for values are parameters without assumptions (class `V1Lib`; C71 assumes that
an identifier made from a string has this string as value). So the theorems hold for every
behaviour of that crate. What v1 strings look like (`Spec/V1.lean`) is taken from the grammar in
the comments of `src/v1_parser.rs`. The trees in the concrete cases of C70 are what this grammar
gives for the quoted v1 texts.

### Language server

`tools/kdl-lsp` is a state machine over notifications, which are handled one after the other.
A `Rope` is its text; the functions of `ropey` (not available here) are modelled after its
documentation, with its default features. Messages, codes and the JSON-RPC layer are not modelled.

### Not modelled

* `query.rs`, `query_parser.rs`, `nom_compat.rs`, `v1_parser.rs` are not part of any build.
  With the feature `v1`, `KdlEntry::autoformat` also calls `ensure_v2` on kept entries; this
  is in `Model/V1Fmt.lean` (C75), all other theorems are about builds without that feature.
* How `miette` renders diagnostics (the texts and labels it gets are modelled, `Model/LspReport.lean`); `severity`, which is always `Error`.
* Memory, time and stack depth. The recursion of the Rust parser is bounded by the OS
  stack; the model has no such bound.
* `usize` overflow of lengths (a text would have to be longer than the address space).

## 2. Trusted base

* The Lean 4 kernel. Of Mathlib only the tactics `ring` and `linarith` are used.
* Axioms. No theorem has axioms other than `propext`, `Classical.choice` and `Quot.sound`.
  Of the theorems in the manifest most use all three; the C12, C16, C17, C20, C22, C23,
  C37 theorems and some of C19, C24, C27, C48, C54 use only `propext` and `Quot.sound` or
  less. There are no own axioms, no `sorry`, no `native_decide`, no `bv_decide`.
* `krfl` (`Lemmas/KernelRfl.lean`) closes a goal `a = b` with the term `Eq.refl b` and
  leaves the check to the kernel. It is used for concrete runs of the parser, where the
  elaborator's own `rfl` needs too much memory. It adds nothing to the trusted base.
* The reading of winnow 1.0.4's combinators (the crate is not available here): `alt`,
  `opt`, `peek`, `not`, `repeat`, `repeat_till`, `separated`, `cut_err`, `take`, `literal`,
  `any`, `one_of`, `none_of`, `take_while`, `eof`, `verify_map`, `try_map`; that
  resetting a `Recoverable` stream does not remove recorded errors; and that
  `recoverable_parse` runs the parser and then `eof`, adding its error if either fails.
* The reading of the Rust standard library: `str::trim`, `str::lines`,
  `char::is_whitespace`, integer parsing and printing, `Vec` operations, `sort_by` being a stable sort.
* For C57–C59 the documented behaviour of `str::parse::<f64>`, `{:?}` and `as f64`. The
  visitor model above for C44, C54 and C59.
* The transcription of the Rust code. Every model definition cites file and lines.

## 3. How the properties are proved

*Consumption and panics* (C05, C06). Every parser returns a suffix of its input
(`Sfx`), every repeated parser a proper one (`Strict`); this gives termination, absence of
panics, and that every recorded piece of text is a piece of the source.

*Losslessness* (C01–C04, C11, C36). `Lemmas/Parser/{Inv,Lossless,Parts,Runs}`: inversion
lemmas say what a successful run looks like; the printed text is compared with the
consumed text piece by piece. `Lemmas/Parser/Snug.lean` decides C01 and C04: the grammar
without the space that is not printed (`Spec/Snug.lean`) describes the texts that are printed
as they were. `Lemmas/Parser/Lost.lean` decides C11: in front of a node that is not parted
from the one before it, the parser stops.

*The grammar* (C28–C33, C38, C42, C47, C50, C51). `Spec/{Space,Strings,Literals,Values,Grammar}`
describe texts by inductive relations, with the data they stand for and without mentioning
parsers. C47 is "every text of the grammar is accepted with its data"
(`Lemmas/Parser/{Space,Lines,Quoted,Multi,Raw,Num,Ident,Tok,Gram}`). C50 adds the
converse (`ValText`, `ExactEntry`, `ExactNode`, `ExactDoc`, `ExactInput`). `Swap` shows
that the grammar depends only on the first characters of what follows. `SlashNode` finds the
text of the node at any place (`Spec/Place.lean`) and shows what putting a slashdash or another
node there does (C32, C60), and that a node with a `;` directly behind it cannot be slashdashed (C32). `Touch` shows which nodes and entries cannot stand directly in front of a slashdash (C60), and where no slashdashed block can stand (C32). `Concat` lets a text be followed by another one, or by a brace (C61, C62).
`Spec/Documented.lean` is the grammar of the comments in `src/v2_parser.rs`, rule by rule.
`Documented` translates it into the grammar of C50 (C64), and `Spaced` translates back, putting
in the separators that the parser does not insist on (C65). `Breaks` replaces all line breaks of a text at
once, by induction over the grammar (C66).

*KDL v1* (C69–C71). `V1Text` converts v1 strings to v2, `V1Exact` shows that no other strings survive (`V2Exact` does so for v2 strings and `ensure_v2`), `V1Doc` whole documents, into texts of the
grammar of C50; `V1Back` decides which v2 strings become v1 strings.

*Language server* (C72, C73). Induction over the history, last notification first; positions are
computed once more from the left, which fits both `ropey` and the LSP specification.

*Printing* (C08–C10, C14, C18, C34, C49, C74). Printed texts are in the grammar; acceptance is then C47.
`Lemmas/Parser/Jam.lean` is the converse: a string or integer that cannot be written is printed as a
text that no entry, name or annotation is read from, so the node that contains it stops in front of
it, is not terminated, and the document is rejected. This makes C10, C49 and C14 without comments exact, and gives C74 (`Props/Silent.lean`).
For C14 with comments, white space and comments are also read by a finite automaton with a
counter (`Lemmas/Parser/Scan.lean`), which makes it easy to follow what trimming the lines
of a comment does (`Lemmas/ScanFmt.lean`). Slashdashed nodes are allowed if the text around them may
be cut into lines (`Spec/Lined.lean`, `Lemmas/Lined.lean`), and slashdashed entries and blocks
after a node are printed as they are (`Lemmas/Behind.lean`, `Props/Lined.lean`).

*Edits* (C34, C35, C52, C53). A relation `Tree`, the grammar with parsed nodes in place of
their data, is preserved under single edits (C52). `TidyDoc` is an invariant that parsing
establishes and every API call keeps; a tidy document prints to a text of the grammar
(C53). For C35, `Lemmas/V2Text.lean` and `Lemmas/Parser/Reval.lean` show which texts of
values survive `ensure_v2`.

*Formatting after edits* (C56). `Spec/Made.lean` closes the API under all its calls, with parts
moving freely between documents. `CalmDoc` (`Lemmas/Calm.lean`) is kept by every call; a calm
document whose strings can be written is printed, after formatting, as in C14.

*Formatting* (C12, C13, C15–C17, C37). Mutual structural induction over documents.

*API* (C19–C24, C48, C40, C41, C63). List reasoning against the small specs of
`Spec/Entries.lean`.

*Equality* (C25–C27). Case analysis on values, induction on documents.

*Recovery* (C39, C06, C55). A simulation: the recovering parser agrees with the strict one
until the first `Cut`, and afterwards has at least one recorded error
(`Lemmas/{Recover,RecoverGrammar}.lean`). For C55 every parser keeps the invariant that what
is left is an end of the input and every recorded region a part of it
(`Lemmas/RecoverSpans.lean`).

*Diagnostics* (C76–C81). Erasing the error values gives the recovering parser for some `Recovery`
(`Lemmas/{DiagLex,Diag,DiagGrammar}.lean`), so accepted parts are read as by the strict parser and
record nothing (`Lemmas/DiagRun.lean`); for C76 every parser keeps the invariant that each
recorded error has a label (`Lemmas/DiagTold.lean`). For C80 the run on the whole text is
compared with the run on its end: neither the length of the whole nor the recursion budget
matters (`Lemmas/DiagTotal.lean`), one leading item or one node in front leaves the rest of the run as it is
but for repeated records (`Lemmas/{DiagFront,DiagLead}.lean`), recorded regions lie in the end (C55), and a
fatal error without a region is about a comment (`Lemmas/{DiagFatal,DiagMoved}.lean`). `Lemmas/DiagOpen.lean` adds blocks that are not closed and braces too many, with other nodes in front (C77_nodes, C77_mistakes, C78_mistakes). For C81 `Spec/Faulty.lean` is the grammar with mistaken names, annotations, keys and values and
their places; `Lemmas/DiagWord.lean` follows the parser over one such word or string, and
`Lemmas/DiagFaulty.lean` over texts that contain them.

*Errors of deserialisation* (C82). Errors can only carry the spans of elements held by the
deserializer at hand (`Lemmas/DeErrParts.lean`); forgetting errors gives `Model/De.lean`
(`Lemmas/DeErr.lean`), and reducing values to their kinds keeps every failure that has no place
(`Lemmas/DeErrKind.lean`).

*Layout* (C83). `Spec/Layout.lean` gives the lines of a document from its data alone. Texts between
parts that have neither a slash nor a backslash are white space (`Lemmas/Pale.lean`), which the
formatter replaces; the rest is an induction over the tree.

*Layout with comments* (C84, C15). `Spec/Noted.lean` gives the lines of a document from its data and
its comments, for two styles: `aligned`, as the property asks, and `actual`, as the code does. The
induction needs to know where the parser puts comments (`SoundDoc`); `parse_sound` gets that from the
exact tree of a parse. `C15_rest_lost` follows, because `notedBody` looks at nothing else.

*Floats* (C57–C59). `Lemmas/FloatRound.lean` proves that rounding gives the nearest float and
is monotone; `Lemmas/{FloatDigits,FloatShort}.lean` that the search for digits misses no
shorter or nearer decimal; `Lemmas/Parser/FloatLit.lean` follows the parser over literals.

*serde* (C43–C46, C49, C54, C59). Induction over the serde data model;
`Lemmas/{Ser,Serde,Group,Leaves,Fields}.lean`.

## 4. Where the code does not satisfy a property

Each item is a theorem about a concrete witness (`Cxx_violated…`). The positive theorem
then has the suffix `_partial` and excludes as little as we could manage.

| Property | Witness |
|---|---|
| C01, C04 | white space or comments in or after a node's type annotation, and white space between `}` and what follows, are not printed; all other texts are (`C01_exact`, `C04_exact`) |
| C08, C09, C10 | `i128::MIN` is printed as a text that is rejected; so are strings with code points that the printer does not escape (U+2028, …) and strings like `-.5`, `+.5`, which are printed bare |
| C11 | the text printed for an accepted document can be rejected (two nodes glued together after `}`); this is exactly when neither the recorded terminator nor a line break in front of the next node parts them (`C11_exact`) |
| C13 | autoformat is not idempotent for nodes without a format record, for kept entries, for `\r\r\n` in trailing texts and for indents that are not white space; for white-space indents these are the only cases (`C13_exact`), and accepted texts without `\r\r\n` have none of them (`C13_parsed`) |
| C14 | a slashdashed node ending in a line continuation swallows the next node when blank lines go; strings like `+.5`; a byte order mark at an indentation > 0 |
| C15 | comments at the end of a line, before an entry, and before a block are lost |
| C16 | a stored terminator that starts with a line feed is kept with its comments (cannot come from parsing) |
| C17 | the representation of a node's type annotation is not cleared |
| C18 | cleared nodes are printed without a separator |
| C21 | `remove` compares keys with their textual representation, and takes the first duplicate where `get` finds the last |
| C26 | NaN, and infinity against `f64::MAX` |
| C29 | a raw multi-line string whose value is `"` is rejected, and no other (`C29_raw_exact`) |
| C32 | a slashdashed node that ends with `;` makes the document an error, at any depth (`C32_any_node_exact`), as does a slashdash in front of a block that touches what stands before it, or has a slashdashed block touching it behind (`C32_any_block_exact`) |
| C33 | `-inf` is accepted as a bare identifier |
| C34 | a changed value or name is not visible when a representation is stored, as it is after parsing |
| C35 | `ensure_v2` breaks the empty string, `"-.5"`, `\/`, and an escaped line break at the end of a string; `C35_entry_exact`: no other text of a value is lost; for other documents as C11 (`C35_document_exact`) |
| C37 | the `keep_format` mark is dropped by the first autoformat (`C37_exact`) |
| C42 | U+007F is accepted literally, and no other (`C42_exact`) |
| C44 | `false` and `Some(false)` as whole values, `Some([])`, sequences starting with `false`, map entries `false` or `null` below the top level, unit fields, top-level tuples, scalars and variants, structs whose first argument is `false`, unwritable strings do not survive; `Kept` says exactly what does. Struct fields named `#…` survive only in a `Layout`: `#1` before `#0`, `#name`, `#0#type`, `#args` beside `#0`, `#0` behind `#rest`, `#@p` beside `p` do not |
| C45 | fields of struct variants, and what follows a leading `false` or `null` in a sequence or struct, are dropped; `C45_exact` says for which values nothing is |
| C49 | a bare `-.5` in the output |
| C57 | a float literal with a digit group above `i128::MAX`, like π with forty digits, is rejected |
| C60, C61 | `a #true/-b` is accepted, but not with another value in place of `#true`, nor with another node behind it; with a node that ends with space in its place, the slashdash silently becomes part of that node (`b /-x y`). No other replacement fails (`C60_entry_exact`, `C60_node_exact`), and for two texts this is the only obstacle (`C61_exact`) |
| C64 | `/-a;` is documented, but an error; `C64_exact`: exactly the documented texts that need such a node are errors, and no documented text is read as other data |
| C65 | `n /-/-x y z` is accepted (without `x` and `y`), but a doubled slashdash is not documented; `C65_shifted_partial` shows that nothing else undocumented is accepted but missing separators |
| C67 | a slashdashed node behind the node, and a byte order mark, are errors for `KdlNode::parse` (`C67_exact`: nothing else is); `KdlEntry::parse` accepts line breaks in front of the entry (`C67_entry_exact`: the only difference) |
| C70 | a comment behind a v1 node swallows the next node after conversion; raw strings without hashes get escapes; blank and CRLF lines of strings, and empty strings, are changed; `\\/` after a backslash or over several lines, raw strings over several lines with `"""`, keys and slashdashed parts are not converted; `C70_string_exact` decides it for every string |
| C71 | strings over several lines, `\s`, escaped white space, a bare `-inf`, and keys are not converted; the last node of a block gets no terminator; a new integer is cut off modulo 2^64 |
| C72 | `content_changes[0]` is the first change of a notification, not the last; without changes it panics; `C72_texts_exact` decides it for every history |
| C73 | `ropey` also ends lines at VT, FF, NEL, LS and PS, LSP does not; `C73_exact` and `C73_report_exact` decide it for every place and every report |
| C75 | with the feature `v1`, keeping and formatting loses the empty string and rewrites `"-.5"` to a rejected number; `C75_exact` decides it for every text |
| C76 | `KdlNode::parse("")`, and what is left over for `KdlNode::parse`, `KdlEntry::parse` and `KdlIdentifier::parse`, have diagnostics without message and label |
| C79 | mistakes in slashdashed parts are reported several times (`a /-{` twice, `a /-1x` five times); nested, the number of diagnostics is exponential in the length of the text |
| C80 | after `a #true/-b` and an empty line, the accepted text `c` is reported; `/-1x` is reported twice if a node precedes it; an unclosed comment (`a`, empty line, `/*x`) is reported at the beginning of the text |
| C81 | a mistaken number or keyword as the value of a property (`a b=1x`), or no value before the end of the line (`a b=`), is fatal: it hides all mistakes after it, in later nodes too |
| C81 | after a raw string with text right behind it (`a #"b"#c true`), all text up to the next quotation mark or `#` is left out without a report if space follows that character, also over several lines |
| C81 | a keyword with text right behind it (`a #truex b=1`) is not reported as such: "Expected end of document" is reported at the first character behind the keyword, and the rest is read as another node |
| C81 | a mistake within a string over several lines (a line with another indentation) ends the string there: its closing quotation marks are reported twice, as a mistaken string and as the name of a node |
| C81 | a number that begins with a point (`a .5`) or an integer beyond 128 bits is reported twice: its first character as "Expected end of document", the rest as the name of a node |
| C81 | a number that lacks its digits, or a lone `#`, takes the next character and word with it, whatever they are: `a 1e true` has one diagnostic, which spans both words, `a 1.⏎true` has one over both lines, and `a {b 1.}` is said not to be closed; a wrong escape in a string with spaces (`a "b\q c" d`) is reported twice |
| C82 | the errors of `from_str` about a node without a value or with several (`port` and `port 1 2` for a number), about a node that occurs twice and about a missing one have no span, so that `diagnostic()` gives nothing |
| C81 | a reserved word as the name of a node (`true 1`) is reported twice, by the string parser and by the check of the name |
| C83 | a document formatted with `indent_level` 1 has its first line indented twice; annotations of entries keep their quotes (`a ("t")1`), those of nodes do not |
| C84 | a comment behind the last node of a document or block is indented by one space at every depth; a comment in a block without nodes is put directly behind the brace (`a {// c`); a block comment between a node and the end of its line is followed by an empty line; `C84_exact` decides it for every document |
| C56 (excluded in the statement) | a comment after the terminator of a node parsed on its own swallows the next node after formatting; a kept entry prints its old value |
| C52, C53 | editing or pushing after a node whose terminator was not recorded, after a final comment without newline, or after a slashdash that directly follows a keyword; edits elsewhere are as C11 (`C52_exact`) |

Further disagreements with the KDL 2 specification that the exact grammar (C50) shows,
`C50_quirks` among them: `b /-{} /-d`, `a {}/-b`, `a #true/-b`, `/-a {}b` and `/-a #trueb`
are accepted; `/-/-b⏎c`, `b{}{}`, `b {};;` and `;` are rejected; `b /-/-d e f` has one
entry, `f`; comments may contain disallowed code points; a raw string may open with three quotes on one
line (`C50_raw_quirk`). In serde, a property given twice is a duplicate field
(`C54_duplicate`) and a property named `#0` collides with the first argument
(`C54_collision`).

## 5. Testing the theorems

Wrong programs were tried in a scratch copy: one definition of the model is changed to a
plausible bug, the project is rebuilt, and the property theorems that fail are recorded in
`seeded/LOG.jsonl`. Where a change made an English claim false but no theorem of that
property failed, the theorem was tightened and the change tried again (the `tightened`
field). Changes that only break helper lemmas before the property theorems are reached are
recorded by the properties that depend on them.

## 6. Testing the model

Two programs run the model on the tests that upstream has for the code. They prove nothing;
they look for mistakes in the transcription. Both are run from `lean/` and are not part of
the build.

* `validation/Suite.lean.txt` runs `tests/test_cases` in the way of `tests/compliance.rs`. All 317
  inputs that upstream checks agree. Upstream has no check for the inputs that should be errors;
  the model rejects them but for two, and so does the code: `unicode_delete_fail` (C42) and
  `multiline_raw_string_single_line_err_fail` (`C50_raw_quirk`).
* `validation/Tests.lean.txt` translates the unit tests of `de.rs`, `se.rs`, `document.rs`, `entry.rs`,
  `identifier.rs`, `node.rs`, `value.rs`, `fmt.rs` and `v2_parser.rs` and `tests/formatting.rs`,
  among them all spans of `span_test`, and parses `examples/*.kdl`. All 140 agree. The tests of
  diagnostics in `v2_parser.rs` are examples at the end of `Props/Diag.lean`. Left out are the tests of the feature `v1`, and an ignored test. Two inputs of
  `slashdash_tests` pass upstream only because winnow's `parse` ignores recorded errors; the public
  function rejects them (C32).
