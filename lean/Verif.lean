import Verif.Model.Chars
import Verif.Model.Value
import Verif.Model.Types
import Verif.Model.Display
import Verif.Model.Parser.Basic
import Verif.Model.Parser.Lex
import Verif.Model.Parser.Strings
import Verif.Model.Parser.Numbers
import Verif.Model.Parser.Grammar
import Verif.Model.Fmt
import Verif.Model.Api
import Verif.Spec.Entries
import Verif.Spec.Data
import Verif.Spec.Lossless
import Verif.Lemmas.Entries
import Verif.Lemmas.Text
import Verif.Lemmas.Parser.Core
import Verif.Lemmas.Parser.Total
import Verif.Lemmas.Parser.Inv
import Verif.Lemmas.Parser.Lossless
import Verif.Lemmas.KernelRfl
import Verif.Spec.Literals
import Verif.Spec.Strings
import Verif.Spec.Print
import Verif.Spec.Parts
import Verif.Lemmas.Parser.Fix
import Verif.Lemmas.Parser.Num
import Verif.Lemmas.Parser.Ident
import Verif.Lemmas.Parser.Quoted
import Verif.Lemmas.Parser.Values
import Verif.Lemmas.Parser.Print
import Verif.Lemmas.Parser.Parts
import Verif.Lemmas.Parser.Tok
import Verif.Lemmas.Parser.PrintDoc
import Verif.Lemmas.Parser.Multi
import Verif.Lemmas.Parser.Raw
import Verif.Lemmas.Parser.Allowed
import Verif.Spec.Build
import Verif.Props.NodeApi
import Verif.Props.DocApi
import Verif.Props.Equality
import Verif.Props.Format
import Verif.Props.Parse
import Verif.Props.Numbers
import Verif.Props.Values
import Verif.Props.Build
import Verif.Props.Strings
import Verif.Spec.Space
import Verif.Spec.Values
import Verif.Lemmas.Parser.Space
import Verif.Lemmas.Parser.ValText
import Verif.Spec.Grammar
import Verif.Lemmas.Parser.Lines
import Verif.Lemmas.Parser.Gram
import Verif.Lemmas.Parser.Swap
import Verif.Lemmas.Parser.ExactEntry
import Verif.Lemmas.Parser.ExactNode
import Verif.Lemmas.Parser.ExactDoc
import Verif.Lemmas.Parser.ExactInput
import Verif.Props.Comments
import Verif.Props.Slashdash
import Verif.Props.SlashAny
import Verif.Props.Exact
import Verif.Spec.Spans
import Verif.Lemmas.Parser.Runs
import Verif.Lemmas.Parser.Shown
import Verif.Props.Spans
import Verif.Props.NodeParts
import Verif.Props.Edit
import Verif.Props.Reprint
import Verif.Props.Settle
import Verif.Model.Ser
import Verif.Model.De
import Verif.Spec.Serde
import Verif.Spec.Leaves
import Verif.Lemmas.Group
import Verif.Lemmas.Ser
import Verif.Lemmas.Serde
import Verif.Lemmas.SerdeRead
import Verif.Lemmas.Leaves
import Verif.Lemmas.LeavesLess
import Verif.Props.Serde
import Verif.Props.Roundtrip
import Verif.Props.Silent
import Verif.Props.Leaves
import Verif.Model.Recover
import Verif.Lemmas.Recover
import Verif.Lemmas.RecoverGrammar
import Verif.Lemmas.RecoverSpans
import Verif.Props.Recover
import Verif.Spec.Edit
import Verif.Spec.Snug
import Verif.Lemmas.Parser.EditText
import Verif.Lemmas.Parser.Lost
import Verif.Lemmas.Parser.Jam
import Verif.Lemmas.Parser.Snug
import Verif.Props.InPlace
import Verif.Props.Snug
import Verif.Spec.Session
import Verif.Lemmas.Parser.Tidy
import Verif.Lemmas.Parser.TidyParse
import Verif.Lemmas.Parser.TidyStep
import Verif.Props.Session
import Verif.Spec.V2
import Verif.Lemmas.V2Text
import Verif.Lemmas.Parser.Reval
import Verif.Props.V2
import Verif.Spec.Fields
import Verif.Lemmas.Fields
import Verif.Props.Fields
import Verif.Spec.Keep
import Verif.Props.Keep
import Verif.Lemmas.Parser.Scan
import Verif.Lemmas.ScanFmt
import Verif.Spec.Lined
import Verif.Lemmas.Lined
import Verif.Lemmas.Behind
import Verif.Props.Reformat
import Verif.Props.Lined
import Verif.Spec.Made
import Verif.Lemmas.Calm
import Verif.Props.Made
import Verif.Model.FloatText
import Verif.Model.FloatCast
import Verif.Spec.FloatText
import Verif.Lemmas.FloatRound
import Verif.Lemmas.FloatDigits
import Verif.Lemmas.FloatRead
import Verif.Lemmas.FloatShow
import Verif.Lemmas.FloatShort
import Verif.Lemmas.Parser.FloatLit
import Verif.Props.FloatText
import Verif.Props.FloatSerde
import Verif.Model.Convert
import Verif.Spec.Lookup
import Verif.Lemmas.Parser.Concat
import Verif.Props.Local
import Verif.Props.Concat
import Verif.Props.Lookup
import Verif.Props.Sort
import Verif.Spec.Documented
import Verif.Lemmas.Parser.Documented
import Verif.Lemmas.Parser.DocumentedLost
import Verif.Lemmas.Parser.Touch
import Verif.Lemmas.Parser.Spaced
import Verif.Lemmas.Parser.Doubled
import Verif.Props.Documented
import Verif.Spec.Breaks
import Verif.Lemmas.Parser.Breaks
import Verif.Props.Breaks
import Verif.Props.Agree
import Verif.Props.AgreeExact
import Verif.Model.V1
import Verif.Spec.V1
import Verif.Lemmas.V1Text
import Verif.Lemmas.V1Exact
import Verif.Lemmas.V2Exact
import Verif.Lemmas.V1Doc
import Verif.Lemmas.V1Back
import Verif.Props.V1
import Verif.Model.V1Fmt
import Verif.Props.V1Format
import Verif.Model.Lsp
import Verif.Spec.Lsp
import Verif.Lemmas.Lsp
import Verif.Props.Lsp
import Verif.Model.DiagLex
import Verif.Model.Diag
import Verif.Lemmas.DiagLex
import Verif.Lemmas.Diag
import Verif.Lemmas.DiagGrammar
import Verif.Lemmas.DiagTold
import Verif.Lemmas.DiagRun
import Verif.Lemmas.DiagMany
import Verif.Lemmas.DiagTotal
import Verif.Lemmas.DiagFront
import Verif.Lemmas.DiagLead
import Verif.Lemmas.DiagFatal
import Verif.Lemmas.DiagMoved
import Verif.Props.Diag
import Verif.Props.DiagFront
import Verif.Spec.Faulty
import Verif.Lemmas.DiagWord
import Verif.Lemmas.DiagFaulty
import Verif.Lemmas.DiagOpen
import Verif.Props.Faulty
import Verif.Model.DeErr
import Verif.Spec.Typed
import Verif.Spec.Blame
import Verif.Lemmas.DeErr
import Verif.Lemmas.DeErrParts
import Verif.Lemmas.DeErrKind
import Verif.Lemmas.DeErrFirst
import Verif.Lemmas.DeErrValue
import Verif.Props.DeErr
import Verif.Spec.Layout
import Verif.Lemmas.Pale
import Verif.Props.Layout
import Verif.Props.Noted
import Verif.Props.NotedExact
import Verif.Props.Parted
import Verif.Model.LspReport
import Verif.Props.LspReport
