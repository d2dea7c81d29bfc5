import Verif.Model.Recover
import Verif.Model.V1
/-
The language server `tools/kdl-lsp`. It keeps the text of each open document and answers
requests for diagnostics with those of `KdlDocument::parse`.

Simplifications: the notifications are handled one after the other; a document is named by
the text of its URL; messages of diagnostics are left to `Model/LspReport.lean`, codes and sources, which are
never given, are left out. The crate `ropey`
is not available here, a `Rope` is its text, and its functions are those of its
documentation: with the default features, line feed, vertical tab, form feed, carriage
return, next line, line separator and paragraph separator end lines, and a carriage return
followed by a line feed ends one line.
-/

namespace Kdl.Lsp

/-- The notifications of `tools/kdl-lsp/src/main.rs:79-98`, as far as the server looks at
them: the texts of a change are those of `content_changes`. -/
inductive Notification where
  | didOpen (uri text : Str)
  | didChange (uri : Str) (changes : List Str)
  | didSave (uri : Str) (text : Option Str)
  | didClose (uri : Str)

/-- `tools/kdl-lsp/src/main.rs:13` `document_map`: the texts that are kept. -/
abbrev Docs := Str → Option Str

/-- `DashMap::insert`, as in `tools/kdl-lsp/src/main.rs:17-20` `on_change`. -/
def Docs.insert (m : Docs) (uri text : Str) : Docs := fun u => if u = uri then some text else m u

/-- `DashMap::remove`. -/
def Docs.remove (m : Docs) (uri : Str) : Docs := fun u => if u = uri then none else m u

/-- `tools/kdl-lsp/src/main.rs:79-98`; `none` is a panic: `content_changes[0]` of an empty
list. -/
def handle (m : Docs) : Notification → Option Docs
  | .didOpen uri text => some (m.insert uri text)
  | .didChange uri changes =>
    match changes with
    | [] => none
    | text :: _ => some (m.insert uri text)
  | .didSave uri text =>
    match text with
    | some text => some (m.insert uri text)
    | none => some m
  | .didClose uri => some (m.remove uri)

/-- The state after some notifications. -/
def run (m : Docs) : List Notification → Option Docs
  | [] => some m
  | e :: es =>
    match handle m e with
    | some m => run m es
    | none => none

/-- The state at the start, `tools/kdl-lsp/src/main.rs:202-205`. -/
def start : Docs := fun _ => none

/-! ### `ropey` -/

/-- A character of the text ends a line, `rest` is what follows it: `ropey` with the feature
`unicode_lines`. -/
def endsLine (c : Char) (rest : Str) : Bool :=
  c == '\n' || (c == '\r' && rest.head? != some '\n') || c == Char.ofNat 0x0B || c == Char.ofNat 0x0C ||
  c == Char.ofNat 0x85 || c == Char.ofNat 0x2028 || c == Char.ofNat 0x2029

/-- `Rope::byte_to_char`: the number of characters in front of a byte; inside of a character,
those in front of this character. -/
def byteToChar : Str → Nat → Nat
  | [], _ => 0
  | c :: s, k => if k < c.utf8Size then 0 else 1 + byteToChar s (k - c.utf8Size)

/-- The number of line ends among the first characters. -/
def lineEnds : Str → Nat → Nat
  | [], _ => 0
  | _ :: _, 0 => 0
  | c :: s, n + 1 => (if endsLine c s then 1 else 0) + lineEnds s n

/-- `Rope::byte_to_line`: the number of line ends in front of a byte. -/
def byteToLine (s : Str) (k : Nat) : Nat := lineEnds s (byteToChar s k)

/-- `Rope::line_to_char`: the number of characters in front of a line. -/
def lineToChar : Str → Nat → Nat
  | _, 0 => 0
  | [], _ + 1 => 0
  | c :: s, l + 1 => 1 + lineToChar s (if endsLine c s then l else l + 1)

/-- The number of UTF-16 code units of a character. -/
def utf16Size (c : Char) : Nat := if c.toNat < 0x10000 then 1 else 2

/-- `Rope::char_to_utf16_cu`: the number of UTF-16 code units of the first characters. -/
def charToUtf16 (s : Str) (n : Nat) : Nat := ((s.take n).map utf16Size).sum

/-! ### Diagnostics -/

/-- `lsp_types::Position`. -/
structure Position where
  line : Nat
  character : Nat
  deriving DecidableEq

/-- `lsp_types::DiagnosticSeverity`. -/
inductive Severity where
  | error
  | warning
  | hint
  deriving DecidableEq

/-- A diagnostic as it is sent, without its message. -/
structure Item where
  start : Position
  stop : Position
  severity : Severity
  deriving DecidableEq

/-- `tools/kdl-lsp/src/main.rs:162-178` `byte_to_position`; `as u32` takes the lowest 32
bits. -/
def byteToPosition (k : Nat) (s : Str) : Position :=
  let k := min k (utf8Len s)
  let line := byteToLine s k
  let col := charToUtf16 s (byteToChar s k) - charToUtf16 s (lineToChar s line)
  ⟨line % 2 ^ 32, col % 2 ^ 32⟩

end Lsp

/-- The span of the error that the v1 parser reports for a text, `src/error.rs:119-134`. -/
class V1Errors where
  span : Str → Span

namespace Lsp

/-- `doc.to_string().parse()` with the feature `v1-fallback` (`src/document.rs:347-369`): the
spans of the diagnostics, or nothing if the text is accepted. The outer `none` is a
panic. -/
def parseSpans [V1Lib] [V1Errors] [FloatIO] (o : Recovery) (s : Str) : Option (Option (List Span)) :=
  match Document.parseR o s with
  | .ok _ => some none
  | .err ds =>
    match Document.parseV1 s with
    | some _ => some none
    | none => some (some (if detectV1 s then [V1Errors.span s] else ds))
  | .panic => none

/-- `tools/kdl-lsp/src/main.rs:100-140` `diagnostic`: the items of the report. The severity of all
diagnostics is `Error` (`src/v2_parser.rs:58`, `src/error.rs:131`). -/
def diagnostic [V1Lib] [V1Errors] [FloatIO] (o : Recovery) (m : Docs) (uri : Str) : Option (List Item) :=
  match m uri with
  | none => some []
  | some s =>
    match parseSpans o s with
    | some (some ds) => some (ds.map fun d => ⟨byteToPosition d.offset s, byteToPosition (d.offset + d.len) s, .error⟩)
    | some none => some []
    | none => none

end Kdl.Lsp
