import Verif.Model.Fmt
import Verif.Model.Parser.Grammar
/-
The optional features `v1` and `v1-fallback`: reading KDL v1 with the help of the older
crate `kdl` 4.7 (called `kdlv1` in the code) and converting between the versions.

The older crate is not part of the repository. Its data types are modelled by what its
public accessors return (`src/document.rs:457-469`, `src/node.rs:390-438`,
`src/entry.rs:385-402`, `src/identifier.rs:117-127`, `src/value.rs:245-260` use all of
them), and its functions are the parameters `V1Lib`. The spans of its results are
kept; its error values are not modelled.
-/

namespace Kdl

namespace V1

/-- `i64`. -/
abbrev I64 := { i : Int // -(2 ^ 63) ≤ i ∧ i < 2 ^ 63 }

/-- `kdlv1::KdlValue`, as matched in `src/value.rs:248-258`. -/
inductive Value where
  | rawString (s : Str)
  | string (s : Str)
  | base2 (i : I64)
  | base8 (i : I64)
  | base10 (i : I64)
  | base10Float (f : F64)
  | base16 (i : I64)
  | bool (b : Bool)
  | null

/-- `kdlv1::KdlIdentifier`, as used in `src/identifier.rs:119-125`. -/
structure Ident where
  value : Str
  repr : Option Str
  span : Span

/-- `kdlv1::KdlEntry`, as used in `src/entry.rs:387-401`. -/
structure Entry where
  ty : Option Ident
  value : Value
  name : Option Ident
  valueRepr : Option Str
  leading : Option Str
  trailing : Option Str
  span : Span

mutual
/-- `kdlv1::KdlNode`, as used in `src/node.rs:392-437`. -/
inductive Node where
  | mk (ty : Option Ident) (name : Ident) (entries : List Entry) (children : Option Document)
      (leading beforeChildren trailing : Option Str) (span : Span)
/-- `kdlv1::KdlDocument`, as used in `src/document.rs:459-468`. -/
inductive Document where
  | mk (nodes : List Node) (leading trailing : Option Str) (span : Span)
end

end V1

/-- The functions of the older crate: `FromStr` for its documents, nodes, entries and
identifiers (`none` is an error), `From<&str> for KdlIdentifier` and
`Display for KdlValue`. -/
class V1Lib where
  parseDocument : Str → Option V1.Document
  parseNode : Str → Option V1.Node
  parseEntry : Str → Option V1.Entry
  parseIdent : Str → Option V1.Ident
  identOfStr : Str → V1.Ident
  showValue : V1.Value → Str

/-- What is assumed of the older crate where it is assumed: an identifier made from a
string has that string as its value. -/
class LawfulV1Lib [V1Lib] : Prop where
  identOfStr_value : ∀ s, (V1Lib.identOfStr s).value = s

/-! ### Conversion of v1 data: the `From` implementations -/

/-- `i.into()` from `i64` to `i128`. -/
def i128OfI64 (i : V1.I64) : I128 := ⟨i.val, by obtain ⟨i, h⟩ := i; simp only [i128Min, i128Max]; omega⟩

/-- `src/value.rs:245-260` `From<kdlv1::KdlValue>`. -/
def Value.ofV1 : V1.Value → Value
  | .rawString s => .string s
  | .string s => .string s
  | .base2 i => .integer (i128OfI64 i)
  | .base8 i => .integer (i128OfI64 i)
  | .base10 i => .integer (i128OfI64 i)
  | .base10Float f => .float f
  | .base16 i => .integer (i128OfI64 i)
  | .bool b => .bool b
  | .null => .null

/-- `src/identifier.rs:117-127` `From<kdlv1::KdlIdentifier>`. -/
def Ident.ofV1 (i : V1.Ident) : Ident := ⟨i.value, i.repr, i.span⟩

/-- `src/entry.rs:385-402` `From<kdlv1::KdlEntry>`. -/
def Entry.ofV1 (e : V1.Entry) : Entry :=
  { ty := e.ty.map Ident.ofV1
    value := Value.ofV1 e.value
    name := e.name.map Ident.ofV1
    format := some { valueRepr := e.valueRepr.getD [], leading := e.leading.getD [], trailing := e.trailing.getD [] }
    span := e.span }

/-- `t.replace("\r\n", "\n")`. -/
def crlfToLf : Str → Str
  | [] => []
  | [c] => [c]
  | c :: d :: s => if c = '\r' ∧ d = '\n' then '\n' :: crlfToLf s else c :: crlfToLf (d :: s)

/-- `t.replacen('\n', "", 1)`. -/
def dropFirstLf : Str → Str
  | [] => []
  | c :: s => if c = '\n' then s else c :: dropFirstLf s

/-- `src/node.rs:393-396`: the terminator of a converted node. -/
def v1Terminator : Option Str → Str
  | some t => if t.contains ';' then [';'] else ['\n']
  | none => ['\n']

/-- `src/node.rs:397-418`, `432`: the text after the terminator of a converted node. The
branch for `terminator == ";"` is never taken, because then the text contains a
semicolon. -/
def v1Trailing : Option Str → Str
  | some t =>
    if t.contains ';' then t.filter (· ≠ ';')
    else
      let t' := (crlfToLf t).map fun c => if isNewlineChar c then '\n' else c
      if v1Terminator (some t) = [';'] then t' else dropFirstLf t'
  | none => []

mutual
/-- `src/node.rs:390-438` `From<kdlv1::KdlNode>`. -/
def Node.ofV1 : V1.Node → Node
  | .mk ty name entries children leading beforeChildren trailing span =>
    .mk (ty.map Ident.ofV1) (Ident.ofV1 name) (entries.map Entry.ofV1) (optDocOfV1 children)
      (some { leading := leading.getD [], beforeChildren := beforeChildren.getD [],
              terminator := v1Terminator trailing, trailing := v1Trailing trailing }) span
/-- `src/node.rs:424`. -/
def optDocOfV1 : Option V1.Document → Option Document
  | none => none
  | some d => some (Document.ofV1 d)
/-- `src/document.rs:457-469` `From<kdlv1::KdlDocument>`. -/
def Document.ofV1 : V1.Document → Document
  | .mk nodes leading trailing span =>
    .mk (nodesOfV1 nodes) (some ⟨leading.getD [], trailing.getD []⟩) span
/-- `src/document.rs:461`. -/
def nodesOfV1 : List V1.Node → List Node
  | [] => []
  | n :: ns => Node.ofV1 n :: nodesOfV1 ns
end

section
variable [V1Lib]

/-! ### Parsing -/

/-- `src/document.rs:376-381` `KdlDocument::parse_v1`. -/
def Document.parseV1 (s : Str) : Option Document := (V1Lib.parseDocument s).map Document.ofV1
/-- `src/node.rs:350-355` `KdlNode::parse_v1`. -/
def Node.parseV1 (s : Str) : Option Node := (V1Lib.parseNode s).map Node.ofV1
/-- `src/entry.rs:216-221` `KdlEntry::parse_v1`. -/
def Entry.parseV1 (s : Str) : Option Entry := (V1Lib.parseEntry s).map Entry.ofV1
/-- `src/identifier.rs:109-114` `KdlIdentifier::parse_v1`. -/
def Ident.parseV1 (s : Str) : Option Ident := (V1Lib.parseIdent s).map Ident.ofV1

/-- The result of parsing with `v1-fallback`: success, or the diagnostics of the v2 or of
the v1 parser. -/
inductive Fallback (α : Type) where
  | ok (a : α)
  | errV2
  | errV1
  | panic

/-- `line.split_whitespace().skip(1).any(…)` of `src/document.rs:488-496`: some word after
the first one does not start like a number. `word` says whether the last character
belongs to a word, `first` whether no word has ended yet. -/
def unquotedWord (word first : Bool) : Str → Bool
  | [] => false
  | c :: s =>
    if isWhitespace c then unquotedWord false (first && !word) s
    else if word then unquotedWord true first s
    else (!first && !(isDecDigit c || c == '-' || c == '+')) || unquotedWord true first s

/-- `src/document.rs:472-502` `detect_v2`. -/
def detectV2 (s : Str) : Bool :=
  (lines s).any fun l =>
    containsStr l "kdl-version 2".toList || containsStr l "#true".toList || containsStr l "#false".toList ||
    containsStr l "#null".toList || containsStr l "#inf".toList || containsStr l "#-inf".toList ||
    containsStr l "#nan".toList || containsStr l " #\"".toList || containsStr l "\"\"\"".toList ||
    (!l.contains '"' && unquotedWord false true l)

/-- `src/document.rs:504-519` `detect_v1`. -/
def detectV1 (s : Str) : Bool :=
  (match lines s with | [] => false | l :: _ => containsStr l "kdl-version 1".toList) ||
  containsStr s " true".toList || containsStr s " false".toList || containsStr s " null".toList ||
  containsStr s "r#\"".toList || containsStr s " \"\n".toList || containsStr s " \"\r\n".toList

/-- `v2(s).or_else(|e| v1(s).map_err(|_| e))`. -/
def orV1 {α : Type} : ParseResult α → Option α → Fallback α
  | .ok a, _ => .ok a
  | .err, some a => .ok a
  | .err, none => .errV2
  | .panic, _ => .panic

variable [FloatIO]

/-- `src/document.rs:347-369` `KdlDocument::parse` with the feature `v1-fallback`. -/
def Document.parseFallback (s : Str) : Fallback Document :=
  match Document.parse s with
  | .ok d => .ok d
  | .err =>
    match Document.parseV1 s with
    | some d => .ok d
    | none => if detectV1 s then .errV1 else .errV2
  | .panic => .panic

/-- `src/node.rs:338-348` `KdlNode::parse` with the feature `v1-fallback`. -/
def Node.parseFallback (s : Str) : Fallback Node := orV1 (Node.parse s) (Node.parseV1 s)
/-- `src/entry.rs:204-214` `KdlEntry::parse` with the feature `v1-fallback`. -/
def Entry.parseFallback (s : Str) : Fallback Entry := orV1 (Entry.parse s) (Entry.parseV1 s)
/-- `src/identifier.rs:97-107` `KdlIdentifier::parse` with the feature `v1-fallback`. -/
def Ident.parseFallback (s : Str) : Fallback Ident := orV1 (Ident.parse s) (Ident.parseV1 s)

/-! ### Conversion to v1: `ensure_v1` -/

/-- `*i as i64`: the value modulo `2^64`. -/
def wrapI64 (i : Int) : V1.I64 := ⟨(i + 2 ^ 63) % 2 ^ 64 - 2 ^ 63, by omega⟩

/-- `src/entry.rs:369-375`. -/
def Value.toV1 : Value → V1.Value
  | .string s => .string s
  | .integer i => .base10 (wrapI64 i.val)
  | .float f => .base10Float f
  | .bool b => .bool b
  | .null => .null

/-- Worker for `replaceAll`: `k` characters of a match are still to be skipped. -/
def replaceAllAux (p by_ : Str) : Nat → Str → Str
  | _, [] => []
  | k + 1, _ :: s => replaceAllAux p by_ k s
  | 0, c :: s =>
    if (stripPrefix? p (c :: s)).isSome then by_ ++ replaceAllAux p by_ (p.length - 1) s
    else c :: replaceAllAux p by_ 0 s

/-- `s.replace(p, by_)` for a pattern that is not empty. -/
def replaceAll (p by_ s : Str) : Str := replaceAllAux p by_ 0 s

/-- `src/v2_parser.rs:1622-1631` `NEWLINES`. -/
def newlineTexts : List Str :=
  [['\r', '\n'], ['\r'], ['\n'], [Char.ofNat 0x85], [Char.ofNat 0x0B], [Char.ofNat 0x0C], [Char.ofNat 0x2028], [Char.ofNat 0x2029]]

/-- `src/entry.rs:316-331`: a multi-line string. -/
def v1MultiLine (s : Str) : Str :=
  let pre := (((s.reverse.dropWhile (· == '"'))).takeWhile isNewlineChar).reverse
  newlineTexts.foldl (fun t nl => replaceAll (nl ++ pre) nl t) s

/-- `s.starts_with("r#")`. -/
def startsWithRHash : Str → Bool
  | 'r' :: '#' :: _ => true
  | _ => false

/-- `s.starts_with('"')`. -/
def startsWithQuote : Str → Bool
  | '"' :: _ => true
  | _ => false

/-- `s.replace('/', "\\/")`. -/
def escapeSlash : Str → Str
  | [] => []
  | c :: s => if c = '/' then '\\' :: '/' :: escapeSlash s else c :: escapeSlash s

/-- `src/entry.rs:295-344`: the new text of a string value. -/
def v1StringRepr (val repr : Str) : Str :=
  let t := trim repr
  let s := if startsWithHash t then 'r' :: t else t
  if isPlainIdent val && !startsWithQuote s && !startsWithRHash s then '"' :: (val ++ ['"'])
  else if s.any isNewlineChar then
    if containsStr s ['"', '"', '"'] then v1MultiLine s else s
  else if !startsWithRHash s then escapeSlash (unescapeSlash s)
  else s

/-- `src/entry.rs:289-382` `ensure_v1`. -/
def Entry.ensureV1 (e : Entry) : Entry :=
  match e.format with
  | none => { e with format := some { valueRepr := V1Lib.showValue e.value.toV1, leading := [' '] } }
  | some f =>
    { e with format := some { f with valueRepr :=
        match e.value with
        | .string val => v1StringRepr val f.valueRepr
        | .bool b => if b then "true".toList else "false".toList
        | .null => "null".toList
        | .integer _ => f.valueRepr
        | .float _ => f.valueRepr } }

/-- `src/document.rs:434-443`: the recorded text in front of a node. -/
def leadingOfNode : Option Node → Str
  | some n => (match n.format with | some f => f.leading | none => [])
  | none => []

/-- `src/document.rs:422-450`: the last node gets a terminator. `penult` is the node before
it. -/
def ensureLastV1 (penult : Option Node) (n : Node) : Node :=
  match n.format with
  | some f =>
    if !f.trailing.contains ';' && f.trailing.any isNewlineChar then n.setFormat (some { f with terminator := [';'] })
    else n
  | none =>
    n.setFormat (some { leading := leadingOfNode penult, terminator := ['\n'] })

mutual
/-- `src/node.rs:371-387` `ensure_v1`. -/
def Node.ensureV1 : Node → Node
  | .mk ty name entries children format span =>
    .mk (ty.map fun t => .ofV1 (V1Lib.identOfStr t.value)) (.ofV1 (V1Lib.identOfStr name.value))
      (entries.map Entry.ensureV1) (ensureV1OptDoc children) format span
/-- `src/node.rs:383-386`. -/
def ensureV1OptDoc : Option Document → Option Document
  | none => none
  | some d => some d.ensureV1
/-- `src/document.rs:411-454` `ensure_v1`. -/
def Document.ensureV1 : Document → Document
  | .mk nodes format span => .mk (ensureV1Nodes none nodes) format span
/-- `src/document.rs:419-453`: the loop over the nodes, which also treats the last node.
`prev` is the node in front, as it was. -/
def ensureV1Nodes (prev : Option Node) : List Node → List Node
  | [] => []
  | n :: ns =>
    (match ns with
      | [] => (n.ensureV1).setFormat (ensureLastV1 prev n).format
      | _ :: _ => n.ensureV1) :: ensureV1Nodes (some n) ns
end

/-! ### Conversion of texts -/

/-- `src/document.rs:383-390` `v1_to_v2`; `none` is an error. -/
def v1ToV2 (s : Str) : Option Str := (Document.parseV1 s).map fun d => d.ensureV2.display

/-- `src/document.rs:392-399` `v2_to_v1`; `none` is an error. -/
def v2ToV1 (s : Str) : Option Str :=
  match Document.parse s with
  | .ok d => some d.ensureV1.display
  | _ => none

end

end Kdl
