import Verif.Model.Parser.Grammar
import Verif.Model.Display
/-
The parser with error recovery. `src/v2_parser.rs` runs on winnow's `Recoverable`
stream, which carries a list of recorded errors; `resume_after_cut` records a `Cut`
error and goes on. The list is never shortened: resetting the stream to an earlier
position, as backtracking does, leaves the recorded errors alone.

Here a parser takes the remaining input and the spans of the errors recorded so far. The
lexical parsers, which record nothing, are those of the strict model (`R.lift`). Where
the code resumes from the position at which the failing parser stopped, the place at
which it goes on is left open (`Recovery`): the strict model drops the position of a
failure. Both this and the error messages are filled in by `Model/Diag.lean`.
-/

namespace Kdl

/-- A part of the input, given by what is left of the input at its beginning and at its
end. -/
structure Region where
  start : Str
  stop : Str

/-- Outcome of running a parser with recovery; `errs` are the regions of the errors recorded.
A `Cut` error may already have a region (`src/v2_parser.rs:99-105`, `span`). -/
inductive RRes (α : Type) where
  | ok (a : α) (rest : Str) (errs : List Region)
  | back (errs : List Region)
  | cut (at? : Option Region) (errs : List Region)
  | crash

/-- A parser with recovery. -/
def R (α : Type) : Type := Str → List Region → RRes α

namespace R

/-- Succeed without consuming. -/
def pure {α : Type} (a : α) : R α := fun s l => .ok a s l

/-- Sequence two parsers. -/
def bind {α β : Type} (p : R α) (f : α → R β) : R β := fun s l =>
  match p s l with
  | .ok a r l => f a r l
  | .back l => .back l
  | .cut e l => .cut e l
  | .crash => .crash

instance : Monad R where
  pure := R.pure
  bind := R.bind

/-- A parser that records nothing. -/
def lift {α : Type} (p : P α) : R α := fun s l =>
  match p s with
  | .ok a r => .ok a r l
  | .back => .back l
  | .cut => .cut none l
  | .crash => .crash

/-- `alt((p, q))`. -/
def alt {α : Type} (p q : R α) : R α := fun s l =>
  match p s l with
  | .back l => q s l
  | r => r

/-- The input that is left. -/
def here : R Str := fun s l => .ok s s l

/-- A backtracking failure. -/
def failP {α : Type} : R α := fun _ l => .back l

/-- `opt(p)`. -/
def opt {α : Type} (p : R α) : R (Option α) := fun s l =>
  match p s l with
  | .ok a r l => .ok (some a) r l
  | .back l => .ok none s l
  | .cut e l => .cut e l
  | .crash => .crash

/-- `cut_err(p)`. -/
def cutErr {α : Type} (p : R α) : R α := fun s l =>
  match p s l with
  | .back l => .cut none l
  | r => r

/-- `p.take()`. -/
def takeP {α : Type} (p : R α) : R Str := do
  let s ← here
  let _ ← p
  let r ← here
  return taken s r

/-- `p.void()`. -/
def void {α : Type} (p : R α) : R Unit := do
  let _ ← p
  return ()

/-- Loop of `repeat(0.., p)`, with a recursion budget. -/
def repFuel {α : Type} (p : R α) : Nat → R (List α)
  | 0, _, _ => .crash
  | n + 1, s, l =>
    match p s l with
    | .ok a r l =>
      if r.length < s.length then
        match repFuel p n r l with
        | .ok as r' l => .ok (a :: as) r' l
        | .back l => .back l
        | .cut e l => .cut e l
        | .crash => .crash
      else .crash
    | .back l => .ok [] s l
    | .cut e l => .cut e l
    | .crash => .crash

/-- `repeat(0.., p)`. -/
def rep0 {α : Type} (p : R α) : R (List α) := fun s l => repFuel p (s.length + 1) s l

/-- Loop of `separated`, after the first element, with a recursion budget. -/
def sepFuel {α β : Type} (p : R α) (sep : R β) : Nat → R (List α)
  | 0, _, _ => .crash
  | n + 1, s, l =>
    match sep s l with
    | .ok _ r l =>
      if r.length < s.length then
        match p r l with
        | .ok a r' l =>
          match sepFuel p sep n r' l with
          | .ok as r'' l => .ok (a :: as) r'' l
          | .back l => .back l
          | .cut e l => .cut e l
          | .crash => .crash
        | .back l => .ok [] s l
        | .cut e l => .cut e l
        | .crash => .crash
      else .crash
    | .back l => .ok [] s l
    | .cut e l => .cut e l
    | .crash => .crash

/-- `separated` after the first element. -/
def sepMore {α β : Type} (p : R α) (sep : R β) : R (List α) := fun s l => sepFuel p sep (s.length + 1) s l

/-- `separated(1.., p, sep)`. -/
def sep1 {α β : Type} (p : R α) (sep : R β) : R (List α) := do
  let a ← p
  let as ← sepMore p sep
  return a :: as

/-- `separated(0.., p, sep)`. -/
def sep0 {α β : Type} (p : R α) (sep : R β) : R (List α) := fun s l =>
  match p s l with
  | .ok a r l =>
    match sepMore p sep r l with
    | .ok as r' l => .ok (a :: as) r' l
    | .back l => .back l
    | .cut e l => .cut e l
    | .crash => .crash
  | .back l => .ok [] s l
  | .cut e l => .cut e l
  | .crash => .crash

end R

/-- The uses of `resume_after_cut` that resume from the position at which the wrapped parser
failed: the three kinds of strings (`src/v2_parser.rs:912-923`), the name of a node
(`363-369`), a value (`590`), and the contents of a type annotation (`868-877`). The value of a
property (`557-567`) is not resumed. -/
inductive Site where
  | ident | raw | quoted | name | entry | ty | prop

/-- Where parsing goes on, and where parsers stop, when there is a `Cut` error. -/
structure Recovery where
  /-- Where parsing resumes after a `Cut` error of a parser started on the given input, or `none`
  if the recovery parser fails as well. -/
  resume : Site → Str → Option Str
  /-- Where a parser started on the given input stopped, if it failed: those of the sites, or the
  whole parser (winnow's `recoverable_parse`). -/
  failed : Option Site → Str → Str
  /-- The region that a failing raw string gives itself (`src/v2_parser.rs:1366-1373`). -/
  rawRegion : Str → Option Region
  /-- what is left is the end of what there was -/
  forward : ∀ site s r, resume site s = some r → ∃ t, s = t ++ r
  forward_failed : ∀ site s, ∃ t, s = t ++ failed site s
  forward_raw : ∀ s e, rawRegion s = some e → ∃ t u, s = t ++ e.start ∧ e.start = u ++ e.stop

section
variable (o : Recovery)

/-- `src/v2_parser.rs:180-194` `from_recoverable_error`: an error without a region gets the one
from `start` to the current position. -/
def located (e : Option Region) (start current : Str) : Region := e.getD ⟨start, current⟩

/-- `src/v2_parser.rs:205-253` `resume_after_cut`. The error is recorded after the recovery parser
has run; if that fails, the input is set back to where the error happened. -/
def R.resume {α : Type} (site : Site) (p : R α) : R (Option α) := fun s l =>
  match p s l with
  | .ok a r l => .ok (some a) r l
  | .back l => .back l
  | .cut e l =>
    match o.resume site s with
    | some r => .ok none r (l ++ [located e s r])
    | none => .cut (some (located e s (o.failed (some site) s))) l
  | .crash => .crash

/-- `resume_after_cut(p, q)` for a parser `p` that does not consume anything before it fails. -/
def R.resumeWith {α : Type} (p : R α) (q : P Unit) : R (Option α) := fun s l =>
  match p s l with
  | .ok a r l => .ok (some a) r l
  | .back l => .back l
  | .cut e l =>
    match q s with
    | .ok _ r => .ok none r (l ++ [located e s r])
    | .crash => .crash
    | _ => .cut (some (located e s s)) l
  | .crash => .crash

/-- Gives a region to a `Cut` error of a parser that has none. -/
def R.mapCut {α : Type} (f : Str → Option Region → Option Region) (p : R α) : R α := fun s l =>
  match p s l with
  | .cut e l => .cut (f s e) l
  | r => r

/-- `src/v2_parser.rs:908-928` `string`. -/
def stringR : R (Option Str) :=
  .alt (.resume o .ident (.lift (do let s ← identifierString; valueTerminatorCheck; return s)))
    (.alt (.resume o .raw (.mapCut (fun s _ => o.rawRegion s)
        (.lift (do let s ← rawString; valueTerminatorCheck; return s))))
      (.resume o .quoted (.lift (do let s ← quotedString; valueTerminatorCheck; return s))))

/-- The value of an identifier that could not be read, `src/v2_parser.rs:938`. -/
def badIdent : Str := "/BAD_IDENT\\".toList

/-- `src/v2_parser.rs:930-954` `identifier`. -/
def identifierR (total : Nat) : R Ident := do
  let s ← R.here
  let v ← stringR o
  let r ← R.here
  match v with
  | some v => return ⟨v, some (taken s r), spanOf total s r⟩
  | none => return ⟨badIdent, some [], spanOf total s r⟩

/-- `src/v2_parser.rs:864-883` `ty`. -/
def tyR (total : Nat) : R (Str × Option Ident × Str) := do
  .lift (lit ['('])
  let before ← .lift (Kdl.takeP nodeSpace0)
  let i ← R.resume o .ty (R.cutErr (do
    let i ← identifierR o total
    .lift (peek (nodeSpace <+> lit [')']))
    return i))
  let after ← .lift (Kdl.takeP nodeSpace0)
  .lift (lit [')'])
  return (before, i, after)

variable [FloatIO]

/-- `src/v2_parser.rs:818` the alternatives of `value`. -/
def valueBodyR : R (Option Value) :=
  .alt (do let v ← .lift keyword; return some v)
    (.alt (do let v ← .lift number; return some v)
      (do let s ← stringR o; return s.map .string))

/-- `src/v2_parser.rs:813-838` `value`. -/
def valueR (total : Nat) : R (Option Entry) := do
  let s ← R.here
  let ty ← R.opt (do let t ← tyR o total; let a ← .lift (Kdl.takeP nodeSpace0); return (t, a))
  let s1 ← R.here
  let v ← valueBodyR o
  let r ← R.here
  match ty with
  | some ((b, i, a), after) =>
    return v.map fun v => { ty := i, value := v, name := none,
                            format := some { valueRepr := taken s1 r, afterTy := after, beforeTyName := b,
                                             afterTyName := a },
                            span := spanOf total s r }
  | none =>
    return v.map fun v => { ty := none, value := v, name := none,
                            format := some { valueRepr := taken s1 r }, span := spanOf total s r }

/-- `src/v2_parser.rs:606-613` `slashdashed_entries`; `entry` is `node_entry`. -/
def slashdashedEntriesRF (entry : R (Option Entry)) : R Unit :=
  R.void (R.sep1 (do .lift slashdash; entry) (.lift nodeSpace1))

/-- `src/v2_parser.rs:544-546`: what comes before an entry. -/
def entryLeadingRF (entry : R (Option Entry)) : R Str :=
  R.takeP (do
    .lift nodeSpace0
    R.opt (do slashdashedEntriesRF entry; .lift nodeSpace1))

/-- `src/v2_parser.rs:548-593`: an entry without what precedes it. -/
def entryBodyR (total : Nat) : R (Option Entry) := do
  let ident ← R.opt (identifierR o total)
  match ident with
  | some i => do
    let afterKey ← .lift (Kdl.opt (do let k ← Kdl.takeP nodeSpace0; equalsSign; return k))
    match afterKey with
    | some ak => do
      let ae ← .lift (Kdl.takeP nodeSpace0)
      let v ← R.mapCut (fun s e => some (located e s (o.failed (some .prop) s))) (R.cutErr (valueR o total))
      return v.map fun v => { v with
        name := some i
        format := v.format.map fun f => { f with afterKey := ak, afterEq := ae } }
    | none =>
      return some { ty := none, value := .string i.value, name := none,
                    format := some { valueRepr := i.repr.getD i.value }, span := .zero }
  | none => do
    let v ← R.resume o .entry (valueR o total)
    return v.join

/-- `src/v2_parser.rs:543-604` `node_entry`, with the recursive call abstracted. -/
def nodeEntryRF (total : Nat) (entry : R (Option Entry)) : R (Option Entry) := do
  let leading ← entryLeadingRF entry
  let s ← R.here
  let e ← entryBodyR o total
  let r ← R.here
  return e.map fun e => { e with
    format := e.format.map fun f => { f with leading := leading }
    span := spanOf total s r }

/-- `node_entry` with a recursion budget. -/
def nodeEntryRN (total : Nat) : Nat → R (Option Entry)
  | 0 => fun _ _ => .crash
  | n + 1 => nodeEntryRF o total (nodeEntryRN total n)

/-- `src/v2_parser.rs:543-604` `node_entry`. -/
def nodeEntryR (total : Nat) : R (Option Entry) := fun s l => nodeEntryRN o total (s.length + 1) s l

/-- `src/v2_parser.rs:606-613` `slashdashed_entries`. -/
def slashdashedEntriesR (total : Nat) : R Unit := slashdashedEntriesRF (nodeEntryR o total)

/-- `src/v2_parser.rs:284,296,330`: what may precede a node. -/
def leadingItemsR (base : R Node) : R Str :=
  R.takeP (R.rep0 (R.alt (.lift lineSpace) (do .lift slashdash; R.void base)))

/-- `src/v2_parser.rs:329-339` `node`; `base` is `base_node`. -/
def nodeRF (base : R Node) : R Node := do
  let leading ← leadingItemsR base
  let nd ← base
  return nd.setFormat (nd.format.map fun f => { f with leading := leading })

/-- `src/v2_parser.rs:282-319` `nodes`. -/
def nodesRF (total : Nat) (base : R Node) : R Document := do
  let leading ← leadingItemsR base
  let s ← R.here
  let ns ← R.sep0 (nodeRF base) (.lift nodeTerminator)
  let r ← R.here
  let _ ← .lift (Kdl.opt nodeTerminator)
  let trailing ← leadingItemsR base
  let (leading, ns) := giveLeading leading ns
  return .mk ns (some { leading := leading, trailing := trailing }) (spanOf total s r)

/-- `src/v2_parser.rs:766-797`: the closing brace; if it is missing, one or two errors are recorded
and the block is empty. The input was `before` at the opening brace and `opened` after it. -/
def closeBraceR (before opened : Str) (d : Document) : R Document := fun s l =>
  match lit ['}'] s with
  | .ok _ r => .ok d r l
  | _ => .ok .new s (l ++ (⟨before, opened⟩ :: if d.isEmpty then [] else [⟨opened, s⟩]))

/-- `src/v2_parser.rs:760-800` `node_children`. -/
def nodeChildrenRF (total : Nat) (base : R Node) : R Document := do
  let before ← R.here
  .lift (lit ['{'])
  let opened ← R.here
  let d ← nodesRF total base
  closeBraceR before opened d

/-- `src/v2_parser.rs:738-750` `slashdashed_children`. -/
def slashdashedChildrenRF (total : Nat) (base : R Node) : R Unit := do
  .lift nodeSpace0
  R.void (R.sep1 (do .lift slashdash; R.void (nodeChildrenRF total base)) (.lift nodeSpace1))

/-- `src/v2_parser.rs:711-729` `before_node_children`. -/
def beforeNodeChildrenRF (total : Nat) (base : R Node) : R Unit := do
  R.alt (do .lift nodeSpace1; slashdashedEntriesR o total; .lift nodeSpace1; slashdashedChildrenRF total base)
    (R.alt (do .lift nodeSpace1; slashdashedEntriesR o total)
      (R.alt (do .lift nodeSpace1; slashdashedChildrenRF total base)
        (.lift nodeSpace0)))
  .lift nodeSpace0

/-- `src/v2_parser.rs:393-398`: the entries of a node. -/
def entriesR (total : Nat) : R (List Entry) := do
  let es ← R.rep0 (do .lift (peek nodeSpace1); nodeEntryR o total)
  return es.filterMap id

/-- `src/v2_parser.rs:399-403`: the children block of a node. -/
def childrenR (total : Nat) (base : R Node) : R (Option (Str × Document)) :=
  R.opt (do
    let b ← R.takeP (beforeNodeChildrenRF o total base)
    let d ← nodeChildrenRF total base
    return (b, d))

/-- `src/v2_parser.rs:404-412`: the text before the terminator. -/
def tailTextR (total : Nat) (base : R Node) (hasChildren : Bool) : R Str :=
  if hasChildren then R.takeP (R.opt (slashdashedChildrenRF total base))
  else R.takeP (beforeNodeChildrenRF o total base)

/-- `src/v2_parser.rs:404-416`: the text before the terminator, and the terminator. -/
def tailR (total : Nat) (base : R Node) (hasChildren : Bool) : R (Str × Str) := do
  let bt ← tailTextR o total base hasChildren
  let t ← .lift (peek (Kdl.takeP (Kdl.opt nodeTerminator)))
  return (bt, t)

/-- `src/v2_parser.rs:352-362`: a children block where a node name was expected. -/
def badNodeR (total : Nat) (base : R Node) : R Node := do
  let _ ← nodeChildrenRF total base
  let _ ← R.opt (slashdashedChildrenRF total base)
  let _ ← R.lift (peek (Kdl.opt nodeTerminator))
  return Node.new (.ofStr "<<BAD_NODE>>".toList)

/-- `src/v2_parser.rs:373-392`: a name that was read only thanks to recovery records another error; the
input was `before` at its beginning. -/
def checkNameR (before : Str) (name : Ident) : R (Option Unit) :=
  if name.repr = some [] then
    R.resumeWith (.mapCut (fun s _ => some ⟨before, s⟩) (.lift cutP)) (fun s => .ok () s)
  else R.pure none

/-- `src/v2_parser.rs:363-439`: a node, from its type annotation on; `s` is the input at its
beginning. -/
def goodNodeR (total : Nat) (base : R Node) (s : Str) : R Node := do
  let ty ← R.opt (tyR o total)
  let afterTy ← R.lift (Kdl.takeP nodeSpace0)
  let before ← R.here
  let name ← R.resume o .name (R.cutErr (identifierR o total))
  let name := name.getD (.ofStr badIdent)
  let _ ← checkNameR before name
  let entries ← entriesR o total
  let children ← childrenR o total base
  let (bt, t) ← tailR o total base children.isSome
  R.lift nodeSpace0
  let r ← R.here
  let (tyB, tyI, tyA) : Str × Option Ident × Str := ty.getD ([], none, [])
  let (bc, ch) : Str × Option Document :=
    match children with
    | some (b, d) => (b, some d)
    | none => ([], none)
  return .mk tyI name entries ch
    (some { beforeTyName := tyB, afterTyName := tyA, afterTy := afterTy, beforeChildren := bc,
            beforeTerminator := bt, terminator := t })
    (spanOf total s r)

/-- `src/v2_parser.rs:344-362`: if the node begins with `{`, an error is recorded and the input is
reset to the brace. -/
def openCurlyR (bad good : R Node) : R Node := fun s l =>
  match R.resumeWith (.lift (Kdl.cutErr (notP (lit ['{'])))) (lit ['{']) s l with
  | .ok (some _) r l => good r l
  | .ok none _ l => bad s l
  | .back l => .back l
  | .cut e l => .cut e l
  | .crash => .crash

/-- `src/v2_parser.rs:341-439` `base_node`, with the recursive call abstracted. -/
def baseNodeRF (total : Nat) (base : R Node) : R Node := do
  .lift (notP (lit ['}'] <+> eof))
  let s ← R.here
  openCurlyR (badNodeR total base) (goodNodeR o total base s)

/-- `base_node` with a recursion budget. -/
def baseNodeRN (total : Nat) : Nat → R Node
  | 0 => fun _ _ => .crash
  | n + 1 => baseNodeRF o total (baseNodeRN total n)

/-- `src/v2_parser.rs:341-439` `base_node`. -/
def baseNodeR (total : Nat) : R Node := fun s l => baseNodeRN o total (s.length + 1) s l

/-- `src/v2_parser.rs:494-512` `padded_node`. -/
def paddedNodeR (total : Nat) : R Node := do
  let s ← R.here
  let n ← nodeRF (baseNodeR o total)
  let _ ← R.lift (Kdl.opt nodeTerminator)
  let trailing ← R.lift (Kdl.takeP (Kdl.rep0 (lineSpace <+> nodeSpace)))
  let r ← R.here
  return (n.setFormat (n.format.map fun f => { f with trailing := trailing })).setSpan
    (spanOf total s r)

/-- `src/v2_parser.rs:514-539` `padded_node_entry`. -/
def paddedNodeEntryR (total : Nat) : R Entry := do
  let s ← R.here
  let leading ← R.lift (Kdl.takeP (Kdl.rep0 lineSpace))
  let e ← nodeEntryR o total
  let trailing ← R.lift (Kdl.takeP (Kdl.rep0 (lineSpace <+> nodeSpace)))
  let r ← R.here
  match e with
  | some e => return { e with
      format := e.format.map fun f =>
        { f with leading := leading ++ f.leading, trailing := f.trailing ++ trailing }
      span := spanOf total s r }
  | none => R.failP

/-- `src/v2_parser.rs:264-272`: the end of the document; after text that is not part of it the parser
is run again, for the sake of its errors. -/
def docEndR (document : R Document) : R Unit := do
  let fin ← R.resumeWith (.lift (Kdl.cutErr eof)) (Kdl.void anyChar)
  match fin with
  | some _ => return ()
  | none => R.void document

/-- `src/v2_parser.rs:261-279` `document`, with the recursive call abstracted. -/
def documentRF (total : Nat) (document : R Document) : R Document := do
  let b ← R.lift (Kdl.opt (Kdl.takeP bom))
  let d ← nodesRF total (baseNodeR o total)
  docEndR document
  match b with
  | some b => return d.prependLeading b
  | none => return d

/-- `document` with a recursion budget. -/
def documentRN (total : Nat) : Nat → R Document
  | 0 => fun _ _ => .crash
  | n + 1 => documentRF o total (documentRN total n)

/-- `src/v2_parser.rs:261-279` `document`. -/
def documentR (total : Nat) : R Document := fun s l => documentRN o total (s.length + 1) s l

end

/-- What a public `parse` function returns: a value, or an error with the spans of its
diagnostics. -/
inductive RResult (α : Type) where
  | ok (a : α)
  | err (diagnostics : List Span)
  | panic

/-- winnow's `recoverable_parse`: the output, if any, and the regions of the errors. A parser that
fails adds its error to those recorded; if it leaves something over, that is recorded. `none` is a
panic. -/
def recoverableParse {α : Type} (o : Recovery) (p : R α) (s : Str) : Option (Option α × List Region) :=
  match p s [] with
  | .ok a [] l => some (some a, l)
  | .ok a r l => some (some a, l ++ [⟨r, []⟩])
  | .back l => some (none, l ++ [⟨s, o.failed none s⟩])
  | .cut e l => some (none, l ++ [located e s (o.failed none s)])
  | .crash => none

/-- `src/v2_parser.rs:30-40` `try_parse` and `42-63` `failure_from_errs`: one diagnostic per error. -/
def tryParseR {α : Type} (o : Recovery) (p : Nat → R α) (s : Str) : RResult α :=
  match recoverableParse o (p (utf8Len s)) s with
  | some (some a, []) => .ok a
  | some (_, l) => .err (l.map fun e => spanOf (utf8Len s) e.start e.stop)
  | none => .panic

section
variable (o : Recovery) [FloatIO]

/-- `src/document.rs:347-374` `KdlDocument::parse`, with recovery. -/
def Document.parseR (s : Str) : RResult Document := tryParseR o (documentR o) s
/-- `src/node.rs:338-348` `KdlNode::parse`, with recovery. -/
def Node.parseR (s : Str) : RResult Node := tryParseR o (paddedNodeR o) s
/-- `src/entry.rs:204-214` `KdlEntry::parse`, with recovery. -/
def Entry.parseR (s : Str) : RResult Entry := tryParseR o (paddedNodeEntryR o) s
omit [FloatIO] in
/-- `src/identifier.rs:97-107` `KdlIdentifier::parse`, with recovery. -/
def Ident.parseR (s : Str) : RResult Ident := tryParseR o (identifierR o) s

end

end Kdl
