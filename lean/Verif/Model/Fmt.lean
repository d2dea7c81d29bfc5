import Verif.Model.Display
/-
Formatting operations: `src/fmt.rs`, and the `clear_format`, `autoformat`,
`keep_format` and `ensure_v2` methods.
-/

namespace Kdl

/-! ### FormatConfig -/

/-- `src/fmt.rs:7-21` `FormatConfig`. -/
structure FormatConfig where
  indentLevel : Nat
  indent : Str
  noComments : Bool
  entryKeep : Bool
  deriving DecidableEq

namespace FormatConfig

/-- `src/fmt.rs:45-52` `FormatConfigBuilder::new` (the builder wraps a
configuration, so both are one type here), `src/fmt.rs:32-34` `builder`. -/
def builder : FormatConfig := ⟨0, [' ', ' ', ' ', ' '], false, false⟩
/-- `src/fmt.rs:57-62` `maybe_indent_level`. -/
def maybeIndentLevel (c : FormatConfig) : Option Nat → FormatConfig
  | some n => { c with indentLevel := n }
  | none => c
/-- `src/fmt.rs:67-70` `indent_level`. -/
def setIndentLevel (c : FormatConfig) (n : Nat) : FormatConfig := { c with indentLevel := n }
/-- `src/fmt.rs:88-90` `indent`. -/
def setIndent (c : FormatConfig) (s : Str) : FormatConfig := { c with indent := s }
/-- `src/fmt.rs:74-84` `maybe_indent`. -/
def maybeIndent (c : FormatConfig) : Option Str → FormatConfig
  | some s => c.setIndent s
  | none => c
/-- `src/fmt.rs:103-106` `no_comments`. -/
def setNoComments (c : FormatConfig) (b : Bool) : FormatConfig := { c with noComments := b }
/-- `src/fmt.rs:94-99` `maybe_no_comments`. -/
def maybeNoComments (c : FormatConfig) : Option Bool → FormatConfig
  | some b => { c with noComments := b }
  | none => c
/-- `src/fmt.rs:109-111` `build`. -/
def build (c : FormatConfig) : FormatConfig := c
/-- `src/fmt.rs:24-28` `Default`. -/
def default : FormatConfig := builder.build

end FormatConfig

/-- `config.indent` repeated `indent_level` times (`src/fmt.rs:122-124,130-132`). -/
def indentText (c : FormatConfig) : Str := (List.replicate c.indentLevel c.indent).flatten

/-- `src/fmt.rs:119-127`: the comment lines of `autoformat_leading`. -/
def leadingLines (c : FormatConfig) : List Str → Str
  | [] => []
  | l :: ls =>
    (if (trim l).isEmpty then [] else indentText c ++ trim l ++ ['\n']) ++ leadingLines c ls

/-- `src/fmt.rs:114-134` `autoformat_leading`. -/
def autoformatLeading (c : FormatConfig) (leading : Str) : Str :=
  (if c.noComments then []
   else if (trim leading).isEmpty then []
   else leadingLines c (lines (trim leading))) ++ indentText c

/-- `src/fmt.rs:146-148`: `writeln!` of every line. -/
def writeLines : List Str → Str
  | [] => []
  | l :: ls => l ++ ['\n'] ++ writeLines ls

/-- `src/fmt.rs:136-151` `autoformat_trailing`. -/
def autoformatTrailing (noComments : Bool) (decor : Str) : Str :=
  if decor.isEmpty then decor
  else
    let d := trim decor
    if !d.isEmpty && !noComments then
      (if trimStart d = d then [' '] else []) ++ writeLines (lines d)
    else []

/-! ### Identifiers and entries -/

/-- `src/identifier.rs:82-84` `clear_format`. -/
def Ident.clearFormat (i : Ident) : Ident := { i with repr := none }
/-- `src/identifier.rs:87-89` `autoformat`. -/
def Ident.autoformat (i : Ident) : Ident := { i with repr := none }

/-- `src/entry.rs:144-152` `clear_format`. -/
def Entry.clearFormat (e : Entry) : Entry :=
  { e with format := none, ty := e.ty.map Ident.clearFormat, name := e.name.map Ident.clearFormat }

/-- `src/entry.rs:166-170` `keep_format`. -/
def Entry.keepFormat (e : Entry) : Entry :=
  { e with format := e.format.map fun f => { f with autoformatKeep := true } }

/-- `src/entry.rs:173-196` `autoformat` (without the `v1` feature). -/
def Entry.autoformat (e : Entry) : Entry :=
  let fmt :=
    match e.format with
    | some f =>
      if f.autoformatKeep then some { valueRepr := f.valueRepr, leading := f.leading } else none
    | none => none
  { e with format := fmt, name := e.name.map Ident.autoformat }

/-! ### Nodes and documents -/

mutual
/-- `src/node.rs:141-150` `clear_format_recursive`. -/
def Node.clearFormatRecursive : Node → Node
  | .mk ty name entries children _ span =>
    .mk ty name.clearFormat (entries.map Entry.clearFormat) (clearOptDoc children) none span
/-- `src/node.rs:144-146`. -/
def clearOptDoc : Option Document → Option Document
  | none => none
  | some d => some d.clearFormatRecursive
/-- `src/document.rs:231-236` `clear_format_recursive`. -/
def Document.clearFormatRecursive : Document → Document
  | .mk nodes _ span => .mk (clearNodes nodes) none span
/-- `src/document.rs:233-235`. -/
def clearNodes : List Node → List Node
  | [] => []
  | n :: ns => n.clearFormatRecursive :: clearNodes ns
end

/-- `src/node.rs:134-136` `clear_format`. -/
def Node.clearFormat (n : Node) : Node := n.setFormat none
/-- `src/document.rs:225-227` `clear_format`. -/
def Document.clearFormat (d : Document) : Document := .mk d.nodes none d.span

/-- `src/node.rs:289-298`: the trailing text of a node. -/
def autoformatNodeTrailing (c : FormatConfig) (t : Str) : Str :=
  let t' := trim (autoformatTrailing c.noComments t)
  match t' with
  | ch :: _ => if isWhitespace ch then t' else ' ' :: t'
  | [] => t'

/-- `src/node.rs:278-306`: the formatting record of a node. -/
def autoformatNodeFmt (c : FormatConfig) : Option NodeFmt → NodeFmt
  | some f =>
    { f with
      leading := autoformatLeading c f.leading
      beforeTerminator := autoformatTrailing c.noComments f.beforeTerminator
      terminator := (match f.terminator with
        | '\n' :: _ => f.terminator
        | _ => ['\n'])
      trailing := autoformatNodeTrailing c f.trailing
      beforeChildren := [' '] }
  | none => { terminator := ['\n'] }

/-- `src/node.rs:311-316`. -/
def autoformatEntry (c : FormatConfig) (e : Entry) : Entry :=
  (if c.entryKeep then e.keepFormat else e).autoformat

/-- `src/node.rs:322-328`: adjustment of the children block's format. -/
def autoformatChildFmt (c : FormatConfig) (f : DocFmt) : DocFmt :=
  { leading := trim f.leading ++ ['\n'], trailing := f.trailing ++ indentText c }

/-- `src/document.rs:253-268`: the format of a document, for a document with or
without nodes. -/
def autoformatDocFmt (c : FormatConfig) (hasNodes : Bool) (f : DocFmt) : DocFmt :=
  { leading := autoformatLeading c f.leading
    trailing := autoformatTrailing c.noComments f.trailing ++ (if hasNodes then [] else ['\n']) }

mutual
/-- `src/node.rs:277-330` `autoformat_config`. -/
def Node.autoformatConfig (c : FormatConfig) : Node → Node
  | .mk ty name entries children format span =>
    .mk (ty.map Ident.clearFormat) name.clearFormat (entries.map (autoformatEntry c))
      (autoformatOptDoc c children) (some (autoformatNodeFmt c format)) span
/-- `src/node.rs:317-329`. -/
def autoformatOptDoc (c : FormatConfig) : Option Document → Option Document
  | none => none
  | some d =>
    let d' := d.autoformatConfig { c with indentLevel := c.indentLevel + 1 }
    some (.mk d'.nodes (d'.format.map (autoformatChildFmt c)) d'.span)
/-- `src/document.rs:253-268` `autoformat_config`. -/
def Document.autoformatConfig (c : FormatConfig) : Document → Document
  | .mk nodes format span =>
    .mk (autoformatNodes c nodes) (format.map (autoformatDocFmt c (!nodes.isEmpty))) span
/-- `src/document.rs:258-261`. -/
def autoformatNodes (c : FormatConfig) : List Node → List Node
  | [] => []
  | n :: ns => n.autoformatConfig c :: autoformatNodes c ns
end

/-- `src/document.rs:240-242` `autoformat`. -/
def Document.autoformat (d : Document) : Document := d.autoformatConfig .default
/-- `src/document.rs:245-250` `autoformat_no_comments`. -/
def Document.autoformatNoComments (d : Document) : Document :=
  d.autoformatConfig { FormatConfig.default with noComments := true }
/-- `src/node.rs:264-266` `autoformat`. -/
def Node.autoformat (n : Node) : Node := n.autoformatConfig .default
/-- `src/node.rs:269-274` `autoformat_no_comments`. -/
def Node.autoformatNoComments (n : Node) : Node :=
  n.autoformatConfig { FormatConfig.default with noComments := true }

/-! ### ensure_v2 -/

/-- `str::strip_prefix('r').unwrap_or(s)`. -/
def stripR : Str → Str
  | 'r' :: s => s
  | s => s

/-- `s.replacen('"', "\"\"\"\n", 1)`. -/
def replaceFirstQuote (by_ : Str) : Str → Str
  | [] => []
  | c :: s => if c = '"' then by_ ++ s else c :: replaceFirstQuote by_ s

/-- `s.replace("\\/", "/")`. -/
def unescapeSlash : Str → Str
  | [] => []
  | [c] => [c]
  | c :: d :: s => if c = '\\' ∧ d = '/' then '/' :: unescapeSlash s else c :: unescapeSlash (d :: s)

/-- `s.starts_with('#')`. -/
def startsWithHash : Str → Bool
  | '#' :: _ => true
  | _ => false

/-- `src/entry.rs:227-263`: new representation of a string value. The reversed
text gets the literal `"""\n`, reversing back yields `\n"""`. -/
def v2StringRepr (val repr : Str) : Str :=
  let s := stripR (trim repr)
  if isPlainIdent val then val
  else if s.any isNewlineChar then
    if containsStr s ['"', '"', '"'] then s
    else (replaceFirstQuote ['"', '"', '"', '\n']
      (replaceFirstQuote ['"', '"', '"', '\n'] s).reverse).reverse
  else if !startsWithHash s then unescapeSlash s
  else s

/-- `src/entry.rs:224-287` `ensure_v2`. -/
def Entry.ensureV2 [FloatIO] (e : Entry) : Entry :=
  match e.format with
  | none => e
  | some f =>
    { e with format := some { f with valueRepr :=
        match e.value with
        | .string val => v2StringRepr val f.valueRepr
        | .bool _ => e.value.display
        | .null => e.value.display
        | .integer _ => f.valueRepr
        | .float _ => f.valueRepr } }

mutual
/-- `src/node.rs:358-369` `ensure_v2`. -/
def Node.ensureV2 [FloatIO] : Node → Node
  | .mk ty name entries children format span =>
    .mk (ty.map fun t => .ofStr t.value) (.ofStr name.value) (entries.map Entry.ensureV2)
      (ensureOptDoc children) format span
/-- `src/node.rs:365-368`. -/
def ensureOptDoc [FloatIO] : Option Document → Option Document
  | none => none
  | some d => some d.ensureV2
/-- `src/document.rs:402-409` `ensure_v2`. -/
def Document.ensureV2 [FloatIO] : Document → Document
  | .mk nodes format span => .mk (ensureNodes nodes) format span
/-- `src/document.rs:406-408`. -/
def ensureNodes [FloatIO] : List Node → List Node
  | [] => []
  | n :: ns => n.ensureV2 :: ensureNodes ns
end

end Kdl
