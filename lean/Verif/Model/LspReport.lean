import Verif.Model.Diag
import Verif.Model.Lsp
/-
What is shown of diagnostics: by `Display` and `miette::Diagnostic` for `KdlDiagnostic`, and by the language server,
whose reports are given here with their messages. Left out are the sources and codes of the items of a report, which are
never given.
-/

namespace Kdl

/-- `src/error.rs:88-96` `Display for KdlDiagnostic`. -/
def Diagnostic.display (d : Diagnostic) : String := d.message.getD "Unexpected error"

/-- `src/error.rs:112-117` `labels`: the texts of the labels, with their places. -/
def Diagnostic.labels (d : Diagnostic) : List (String × Span) := [(d.label.getD "here", d.span)]

/-- `src/error.rs:45-49` `Display for KdlError`. -/
def errorDisplay : String := "Failed to parse KDL document"

/-- What the error of the v1 parser for a text says, apart from its place: the text of its kind, its label and its
advice. -/
class V1Messages where
  kind : Str → String
  label : Str → Option String
  help : Str → Option String

/-- `src/error.rs:120-134`: the diagnostic of the v1 parser. -/
def v1Diagnostic [V1Errors] [V1Messages] (s : Str) : Diagnostic :=
  ⟨V1Errors.span s, some (V1Messages.kind s), V1Messages.label s, V1Messages.help s⟩

/-- `src/document.rs:347-369` `KdlDocument::parse` with the feature `v1-fallback`, and with diagnostics. -/
def Document.parseFallbackD [V1Lib] [V1Errors] [V1Messages] [FloatIO] (s : Str) : DResult Document :=
  match Document.parseD s with
  | .ok d => .ok d
  | .err ds =>
    match Document.parseV1 s with
    | some d => .ok d
    | none => if detectV1 s then .err [v1Diagnostic s] else .err ds
  | .panic => .panic

namespace Lsp

/-- A diagnostic as it is sent. -/
structure Shown where
  item : Item
  message : String
  deriving DecidableEq

/-- `tools/kdl-lsp/src/main.rs:112-126`: how one diagnostic of the text `s` is sent. -/
def show_ (s : Str) (d : Diagnostic) : Shown :=
  ⟨⟨byteToPosition d.span.offset s, byteToPosition (d.span.offset + d.span.len) s, .error⟩, d.display⟩

/-- `tools/kdl-lsp/src/main.rs:100-140` `diagnostic`: the items of the report, with their messages. -/
def report [V1Lib] [V1Errors] [V1Messages] [FloatIO] (m : Docs) (uri : Str) : Option (List Shown) :=
  match m uri with
  | none => some []
  | some s =>
    match Document.parseFallbackD s with
    | .ok _ => some []
    | .err ds => some (ds.map (show_ s))
    | .panic => none

end Lsp

end Kdl
