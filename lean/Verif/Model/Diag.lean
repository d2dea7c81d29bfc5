import Verif.Model.DiagLex
import Verif.Model.Recover
/-
The parser with error recovery and its diagnostics: what `Model/Recover.lean` leaves open is filled in. A
parser takes the remaining input and the errors recorded so far, each with its region; when it fails, it also
says what error it failed with and which input is left.
-/

namespace Kdl

/-- A recorded error and its region. -/
abbrev Rec := PErr × Region

/-- Outcome of running a parser; `left` is the input that is left when it fails. A `Cut` error may already
have a region (`src/v2_parser.rs:99-105`, `span`). -/
inductive DRes (α : Type) where
  | ok (a : α) (rest : Str) (errs : List Rec)
  | back (e : PErr) (left : Str) (errs : List Rec)
  | cut (e : PErr) (at? : Option Region) (left : Str) (errs : List Rec)
  | crash

/-- A parser with recovery. -/
def D (α : Type) : Type := Str → List Rec → DRes α

namespace D

/-- Succeed without consuming. -/
def pure {α : Type} (a : α) : D α := fun s l => .ok a s l

/-- Sequence two parsers. -/
def bind {α β : Type} (p : D α) (f : α → D β) : D β := fun s l =>
  match p s l with
  | .ok a r l => f a r l
  | .back e r l => .back e r l
  | .cut e g r l => .cut e g r l
  | .crash => .crash

instance : Monad D where
  pure := D.pure
  bind := D.bind

/-- A parser that records nothing. -/
def lift {α : Type} (p : L α) : D α := fun s l =>
  match p s with
  | .ok a r => .ok a r l
  | .back e r => .back e r l
  | .cut e r => .cut e none r l
  | .crash => .crash

/-- `alt((p, q))`. -/
def alt {α : Type} (p q : D α) : D α := fun s l =>
  match p s l with
  | .back _ _ l => q s l
  | r => r

/-- The input that is left. -/
def here : D Str := fun s l => .ok s s l

/-- A backtracking failure. -/
def failP {α : Type} : D α := fun s l => .back {} s l

/-- `opt(p)`. -/
def opt {α : Type} (p : D α) : D (Option α) := fun s l =>
  match p s l with
  | .ok a r l => .ok (some a) r l
  | .back _ _ l => .ok none s l
  | .cut e g r l => .cut e g r l
  | .crash => .crash

/-- `cut_err(p)`. -/
def cutErr {α : Type} (p : D α) : D α := fun s l =>
  match p s l with
  | .back e r l => .cut e none r l
  | r => r

/-- `p.context(c)`. -/
def ctx {α : Type} (c : PErr) (p : D α) : D α := fun s l =>
  match p s l with
  | .back e r l => .back (c.within e) r l
  | .cut e g r l => .cut (c.within e) g r l
  | r => r

/-- `p.take()`. -/
def takeP {α : Type} (p : D α) : D Str := do
  let s ← here
  let _ ← p
  let r ← here
  return taken s r

/-- `p.void()`. -/
def void {α : Type} (p : D α) : D Unit := do
  let _ ← p
  return ()

/-- Loop of `repeat(0.., p)`, with a recursion budget. -/
def repFuel {α : Type} (p : D α) : Nat → D (List α)
  | 0, _, _ => .crash
  | n + 1, s, l =>
    match p s l with
    | .ok a r l =>
      if r.length < s.length then
        match repFuel p n r l with
        | .ok as r' l => .ok (a :: as) r' l
        | .back e r' l => .back e r' l
        | .cut e g r' l => .cut e g r' l
        | .crash => .crash
      else .crash
    | .back _ _ l => .ok [] s l
    | .cut e g r l => .cut e g r l
    | .crash => .crash

/-- `repeat(0.., p)`. -/
def rep0 {α : Type} (p : D α) : D (List α) := fun s l => repFuel p (s.length + 1) s l

/-- Loop of `separated`, after the first element, with a recursion budget. -/
def sepFuel {α β : Type} (p : D α) (sep : D β) : Nat → D (List α)
  | 0, _, _ => .crash
  | n + 1, s, l =>
    match sep s l with
    | .ok _ r l =>
      if r.length < s.length then
        match p r l with
        | .ok a r' l =>
          match sepFuel p sep n r' l with
          | .ok as r'' l => .ok (a :: as) r'' l
          | .back e r'' l => .back e r'' l
          | .cut e g r'' l => .cut e g r'' l
          | .crash => .crash
        | .back _ _ l => .ok [] s l
        | .cut e g r' l => .cut e g r' l
        | .crash => .crash
      else .crash
    | .back _ _ l => .ok [] s l
    | .cut e g r l => .cut e g r l
    | .crash => .crash

/-- `separated` after the first element. -/
def sepMore {α β : Type} (p : D α) (sep : D β) : D (List α) := fun s l => sepFuel p sep (s.length + 1) s l

/-- `separated(1.., p, sep)`. -/
def sep1 {α β : Type} (p : D α) (sep : D β) : D (List α) := do
  let a ← p
  let as ← sepMore p sep
  return a :: as

/-- `separated(0.., p, sep)`. -/
def sep0 {α β : Type} (p : D α) (sep : D β) : D (List α) := fun s l =>
  match p s l with
  | .ok a r l =>
    match sepMore p sep r l with
    | .ok as r' l => .ok (a :: as) r' l
    | .back e r' l => .back e r' l
    | .cut e g r' l => .cut e g r' l
    | .crash => .crash
  | .back _ _ l => .ok [] s l
  | .cut e g r l => .cut e g r l
  | .crash => .crash

/-- `src/v2_parser.rs:205-253` `resume_after_cut`. The error is recorded after the recovery parser `q`
has run; if that fails, the input is set back to where the error happened. -/
def resume {α : Type} (p : D α) (q : P Unit) : D (Option α) := fun s l =>
  match p s l with
  | .ok a r l => .ok (some a) r l
  | .back e r l => .back e r l
  | .cut e g r l =>
    match q r with
    | .ok _ r' => .ok none r' (l ++ [(e, located g s r')])
    | .crash => .crash
    | _ => .cut e (some (located g s r)) r l
  | .crash => .crash

/-- Gives a region to a `Cut` error; `f` gets the input at the beginning and where it failed. -/
def mapCut {α : Type} (f : Str → Str → Option Region → Option Region) (p : D α) : D α := fun s l =>
  match p s l with
  | .cut e g r l => .cut e (f s r g) r l
  | r => r

end D

/-- `src/v2_parser.rs:1366-1373`: the refusal of the value `"`; the input was `start` at the beginning of the
string. -/
def tripleQuotesD {α : Type} (start : Str) : D α := fun r l =>
  .cut
    { message := some "Single-line raw strings cannot look like multi-line ones", label := some "triple quotes",
      help := some "Consider using a regular escaped string if all you want is a single quote: \"\\\"\"" }
    (some ⟨start, r⟩) r l

/-- `src/v2_parser.rs:1271-1377` `raw_string`. -/
def rawStringD : D Str := do
  let s ← D.here
  let body ← .lift rawStringL
  if body = ['"'] then tripleQuotesD s else return body

/-- `src/v2_parser.rs:913`: an identifier string, and the end of it. -/
def identSiteD : D Str :=
  .ctx { label := some "identifier string" } (.lift (do let s ← identifierStringL; valueTerminatorCheckL; return s))

/-- `src/v2_parser.rs:917`: a raw string, and the end of it. -/
def rawSiteD : D Str :=
  .ctx { label := some "raw string" } (do let s ← rawStringD; .lift valueTerminatorCheckL; return s)

/-- `src/v2_parser.rs:921`: a quoted string, and the end of it. -/
def quotedSiteD : D Str :=
  .ctx { label := some "quoted string" } (.lift (do let s ← quotedStringL; valueTerminatorCheckL; return s))

/-- `src/v2_parser.rs:908-928` `string`. -/
def stringD : D (Option Str) :=
  .alt (.resume identSiteD badval)
    (.alt (.resume rawSiteD (rawStringBadval <+> badval)) (.resume quotedSiteD (quotedStringBadval <+> badval)))

/-- `src/v2_parser.rs:930-954` `identifier`. -/
def identifierD (total : Nat) : D Ident := do
  let s ← D.here
  let v ← stringD
  let r ← D.here
  match v with
  | some v => return ⟨v, some (taken s r), spanOf total s r⟩
  | none => return ⟨badIdent, some [], spanOf total s r⟩

/-- `src/v2_parser.rs:870-873`: the contents of a type annotation. -/
def tyBodyD (total : Nat) : D Ident :=
  .cutErr (.ctx { label := some "type name", message := some "invalid contents inside type annotation" } (do
    let i ← identifierD total
    .lift (.peek (nodeSpaceL <|+> .lit [')']))
    return i))

/-- `src/v2_parser.rs:864-883` `ty`. -/
def tyD (total : Nat) : D (Str × Option Ident × Str) := do
  .lift (.lit ['('])
  let before ← .lift (.takeP nodeSpace0L)
  let i ← D.resume (tyBodyD total) badvalTy
  let after ← .lift (.takeP nodeSpace0L)
  .lift (.lit [')'])
  return (before, i, after)

variable [FloatIO]

/-- `src/v2_parser.rs:818` the alternatives of `value`. -/
def valueBodyD : D (Option Value) :=
  .alt (do let v ← .lift keywordL; return some v)
    (.alt (do let v ← .lift numberL; return some v)
      (do let s ← stringD; return s.map .string))

/-- `src/v2_parser.rs:813-838` `value`. -/
def valueD (total : Nat) : D (Option Entry) := do
  let s ← D.here
  let ty ← D.opt (do let t ← tyD total; let a ← .lift (.takeP nodeSpace0L); return (t, a))
  let s1 ← D.here
  let v ← valueBodyD
  let r ← D.here
  match ty with
  | some ((b, i, a), after) =>
    return v.map fun v => { ty := i, value := v, name := none,
                            format := some { valueRepr := taken s1 r, afterTy := after, beforeTyName := b,
                                             afterTyName := a },
                            span := spanOf total s r }
  | none =>
    return v.map fun v => { ty := none, value := v, name := none,
                            format := some { valueRepr := taken s1 r }, span := spanOf total s r }

/-- `src/v2_parser.rs:606-613` `slashdashed_entries`; `entry` is `node_entry`. -/
def slashdashedEntriesDF (entry : D (Option Entry)) : D Unit :=
  D.void (D.sep1 (do .lift slashdashL; entry) (.lift nodeSpace1L))

/-- `src/v2_parser.rs:544-546`: what comes before an entry. -/
def entryLeadingDF (entry : D (Option Entry)) : D Str :=
  D.takeP (do
    .lift nodeSpace0L
    D.opt (do slashdashedEntriesDF entry; .lift nodeSpace1L))

/-- `src/v2_parser.rs:560`: the value of a property. -/
def propValueD (total : Nat) : D (Option Entry) :=
  .cutErr (.ctx { label := some "property value" } (valueD total))

/-- `src/v2_parser.rs:548-593`: an entry without what precedes it. -/
def entryBodyD (total : Nat) : D (Option Entry) := do
  let ident ← D.opt (identifierD total)
  match ident with
  | some i => do
    let afterKey ← .lift (.opt (do let k ← L.takeP nodeSpace0L; equalsSignL; return k))
    match afterKey with
    | some ak => do
      let ae ← .lift (.takeP nodeSpace0L)
      let v ← D.mapCut (fun s r e => some (located e s r)) (propValueD total)
      return v.map fun v => { v with
        name := some i
        format := v.format.map fun f => { f with afterKey := ak, afterEq := ae } }
    | none =>
      return some { ty := none, value := .string i.value, name := none,
                    format := some { valueRepr := i.repr.getD i.value }, span := .zero }
  | none => do
    let v ← D.resume (valueD total) badval
    return v.join

/-- `src/v2_parser.rs:543-604` `node_entry`, with the recursive call abstracted. -/
def nodeEntryDF (total : Nat) (entry : D (Option Entry)) : D (Option Entry) := do
  let leading ← entryLeadingDF entry
  let s ← D.here
  let e ← entryBodyD total
  let r ← D.here
  return e.map fun e => { e with
    format := e.format.map fun f => { f with leading := leading }
    span := spanOf total s r }

/-- `node_entry` with a recursion budget. -/
def nodeEntryDN (total : Nat) : Nat → D (Option Entry)
  | 0 => fun _ _ => .crash
  | n + 1 => nodeEntryDF total (nodeEntryDN total n)

/-- `src/v2_parser.rs:543-604` `node_entry`. -/
def nodeEntryD (total : Nat) : D (Option Entry) := fun s l => nodeEntryDN total (s.length + 1) s l

/-- `src/v2_parser.rs:606-613` `slashdashed_entries`. -/
def slashdashedEntriesD (total : Nat) : D Unit := slashdashedEntriesDF (nodeEntryD total)

omit [FloatIO] in
/-- `src/v2_parser.rs:284,296,330`: what may precede a node. -/
def leadingItemsD (base : D Node) : D Str :=
  D.takeP (D.rep0 (D.alt (.lift lineSpaceL) (do .lift slashdashL; D.void base)))

omit [FloatIO] in
/-- `src/v2_parser.rs:329-339` `node`; `base` is `base_node`. -/
def nodeDF (base : D Node) : D Node := do
  let leading ← leadingItemsD base
  let nd ← base
  return nd.setFormat (nd.format.map fun f => { f with leading := leading })

omit [FloatIO] in
/-- `src/v2_parser.rs:282-319` `nodes`. -/
def nodesDF (total : Nat) (base : D Node) : D Document := do
  let leading ← leadingItemsD base
  let s ← D.here
  let ns ← D.sep0 (nodeDF base) (.lift nodeTerminatorL)
  let r ← D.here
  let _ ← .lift (.opt nodeTerminatorL)
  let trailing ← leadingItemsD base
  let (leading, ns) := giveLeading leading ns
  return .mk ns (some { leading := leading, trailing := trailing }) (spanOf total s r)

omit [FloatIO] in
/-- `src/v2_parser.rs:766-797`: the closing brace; if it is missing, one or two errors are recorded
and the block is empty. The input was `before` at the opening brace and `opened` after it. -/
def closeBraceD (before opened : Str) (d : Document) : D Document := fun s l =>
  match L.lit ['}'] s with
  | .ok _ r => .ok d r l
  | _ => .ok .new s (l ++
      (({ message := some "No closing '}' for child block", label := some "closed" }, ⟨before, opened⟩) ::
        if d.isEmpty then []
        else [({ message := some "Closing '}' was not found after nodes", label := some "closed" }, ⟨opened, s⟩)]))

omit [FloatIO] in
/-- `src/v2_parser.rs:760-800` `node_children`. -/
def nodeChildrenDF (total : Nat) (base : D Node) : D Document := do
  let before ← D.here
  .lift (.lit ['{'])
  let opened ← D.here
  let d ← nodesDF total base
  closeBraceD before opened d

omit [FloatIO] in
/-- `src/v2_parser.rs:738-750` `slashdashed_children`. -/
def slashdashedChildrenDF (total : Nat) (base : D Node) : D Unit := do
  .lift nodeSpace0L
  D.void (D.sep1 (do .lift slashdashL; D.void (nodeChildrenDF total base)) (.lift nodeSpace1L))

/-- `src/v2_parser.rs:711-729` `before_node_children`. -/
def beforeNodeChildrenDF (total : Nat) (base : D Node) : D Unit := do
  D.alt (do .lift nodeSpace1L; slashdashedEntriesD total; .lift nodeSpace1L; slashdashedChildrenDF total base)
    (D.alt (do .lift nodeSpace1L; slashdashedEntriesD total)
      (D.alt (do .lift nodeSpace1L; slashdashedChildrenDF total base)
        (.lift nodeSpace0L)))
  .lift nodeSpace0L

/-- `src/v2_parser.rs:393-398`: the entries of a node. -/
def entriesD (total : Nat) : D (List Entry) := do
  let es ← D.rep0 (do .lift (.peek nodeSpace1L); nodeEntryD total)
  return es.filterMap id

/-- `src/v2_parser.rs:399-403`: the children block of a node. -/
def childrenD (total : Nat) (base : D Node) : D (Option (Str × Document)) :=
  D.opt (do
    let b ← D.takeP (beforeNodeChildrenDF total base)
    let d ← nodeChildrenDF total base
    return (b, d))

/-- `src/v2_parser.rs:404-412`: the text before the terminator. -/
def tailTextD (total : Nat) (base : D Node) (hasChildren : Bool) : D Str :=
  if hasChildren then D.takeP (D.opt (slashdashedChildrenDF total base))
  else D.takeP (beforeNodeChildrenDF total base)

/-- `src/v2_parser.rs:404-416`: the text before the terminator, and the terminator. -/
def tailD (total : Nat) (base : D Node) (hasChildren : Bool) : D (Str × Str) := do
  let bt ← tailTextD total base hasChildren
  let t ← .lift (.peek (.takeP (.opt nodeTerminatorL)))
  return (bt, t)

omit [FloatIO] in
/-- `src/v2_parser.rs:352-362`: a children block where a node name was expected. -/
def badNodeD (total : Nat) (base : D Node) : D Node := do
  let _ ← nodeChildrenDF total base
  let _ ← D.opt (slashdashedChildrenDF total base)
  let _ ← D.lift (.peek (.opt nodeTerminatorL))
  return Node.new (.ofStr "<<BAD_NODE>>".toList)

/-- `src/v2_parser.rs:364-367,388-390`: the context of a bad node name. -/
def nameCx : PErr :=
  { message := some "Found invalid node name", label := some "node name",
    help := some "This can be any string type, including a quoted, raw, or multiline string, as well as a plain identifier string." }

omit [FloatIO] in
/-- `src/v2_parser.rs:373-392`: a name that was read only thanks to recovery records another error; the
input was `before` at its beginning. -/
def checkNameD (before : Str) (name : Ident) : D (Option Unit) :=
  if name.repr = some [] then
    D.resume (.ctx nameCx (fun s l => .cut {} (some ⟨before, s⟩) s l)) (fun s => .ok () s)
  else D.pure none

omit [FloatIO] in
/-- `src/v2_parser.rs:363`: the name of a node. -/
def nameD (total : Nat) : D Ident := .ctx nameCx (.cutErr (identifierD total))

/-- `src/v2_parser.rs:363-439`: a node, from its type annotation on; `s` is the input at its
beginning. -/
def goodNodeD (total : Nat) (base : D Node) (s : Str) : D Node := do
  let ty ← D.opt (tyD total)
  let afterTy ← D.lift (.takeP nodeSpace0L)
  let before ← D.here
  let name ← D.resume (nameD total) badval
  let name := name.getD (.ofStr badIdent)
  let _ ← checkNameD before name
  let entries ← entriesD total
  let children ← childrenD total base
  let (bt, t) ← tailD total base children.isSome
  D.lift nodeSpace0L
  let r ← D.here
  let (tyB, tyI, tyA) : Str × Option Ident × Str := ty.getD ([], none, [])
  let (bc, ch) : Str × Option Document :=
    match children with
    | some (b, d) => (b, some d)
    | none => ([], none)
  return .mk tyI name entries ch
    (some { beforeTyName := tyB, afterTyName := tyA, afterTy := afterTy, beforeChildren := bc,
            beforeTerminator := bt, terminator := t })
    (spanOf total s r)

/-- `src/v2_parser.rs:346-349`: the context of a children block without a node. -/
def openCx : PErr :=
  { message := some "Found child block instead of node name", label := some "node name",
    help := some "Did you forget to add the node name itself? Or perhaps terminated the node before its child block?" }

omit [FloatIO] in
/-- `src/v2_parser.rs:344-362`: if the node begins with `{`, an error is recorded and the input is
reset to the brace. -/
def openCurlyD (bad good : D Node) : D Node := fun s l =>
  match D.resume (.lift (.cutErr (.ctx openCx (.notP (.lit ['{']))))) (lit ['{']) s l with
  | .ok (some _) r l => good r l
  | .ok none _ l => bad s l
  | .back e r l => .back e r l
  | .cut e g r l => .cut e g r l
  | .crash => .crash

/-- `src/v2_parser.rs:341-439` `base_node`, with the recursive call abstracted. -/
def baseNodeDF (total : Nat) (base : D Node) : D Node := do
  .lift (.notP (.lit ['}'] <|+> .eof))
  let s ← D.here
  openCurlyD (badNodeD total base) (goodNodeD total base s)

/-- `base_node` with a recursion budget. -/
def baseNodeDN (total : Nat) : Nat → D Node
  | 0 => fun _ _ => .crash
  | n + 1 => baseNodeDF total (baseNodeDN total n)

/-- `src/v2_parser.rs:341-439` `base_node`. -/
def baseNodeD (total : Nat) : D Node := fun s l => baseNodeDN total (s.length + 1) s l

/-- `src/v2_parser.rs:494-512` `padded_node`. -/
def paddedNodeD (total : Nat) : D Node := do
  let s ← D.here
  let n ← nodeDF (baseNodeD total)
  let _ ← D.lift (.opt nodeTerminatorL)
  let trailing ← D.lift (.takeP (.rep0 (lineSpaceL <|+> nodeSpaceL)))
  let r ← D.here
  return (n.setFormat (n.format.map fun f => { f with trailing := trailing })).setSpan
    (spanOf total s r)

/-- `src/v2_parser.rs:514-539` `padded_node_entry`. -/
def paddedNodeEntryD (total : Nat) : D Entry := do
  let s ← D.here
  let leading ← D.lift (.takeP (.rep0 lineSpaceL))
  let e ← nodeEntryD total
  let trailing ← D.lift (.takeP (.rep0 (lineSpaceL <|+> nodeSpaceL)))
  let r ← D.here
  match e with
  | some e => return { e with
      format := e.format.map fun f =>
        { f with leading := leading ++ f.leading, trailing := f.trailing ++ trailing }
      span := spanOf total s r }
  | none => D.failP

omit [FloatIO] in
/-- `src/v2_parser.rs:264-272`: the end of the document; after text that is not part of it the parser
is run again, for the sake of its errors. -/
def docEndD (document : D Document) : D Unit := do
  let fin ← D.resume (.ctx { label := some "EOF", message := some "Expected end of document" }
    (.lift (.cutErr .eof))) (Kdl.void anyChar)
  match fin with
  | some _ => return ()
  | none => D.void document

/-- `src/v2_parser.rs:261-279` `document`, with the recursive call abstracted. -/
def documentDF (total : Nat) (document : D Document) : D Document := do
  let b ← D.lift (.opt (.takeP bomL))
  let d ← nodesDF total (baseNodeD total)
  docEndD document
  match b with
  | some b => return d.prependLeading b
  | none => return d

/-- `document` with a recursion budget. -/
def documentDN (total : Nat) : Nat → D Document
  | 0 => fun _ _ => .crash
  | n + 1 => documentDF total (documentDN total n)

/-- `src/v2_parser.rs:261-279` `document`. -/
def documentD (total : Nat) : D Document := fun s l => documentDN total (s.length + 1) s l

/-! ### The public functions -/

/-- `src/error.rs:67-86` `KdlDiagnostic`; the severity is always `Error`, and the input is that of the
call. -/
structure Diagnostic where
  span : Span
  message : Option String
  label : Option String
  help : Option String
  deriving DecidableEq

/-- What a public `parse` function returns: a value, or a `KdlError` with its diagnostics. -/
inductive DResult (α : Type) where
  | ok (a : α)
  | err (diagnostics : List Diagnostic)
  | panic

omit [FloatIO] in
/-- winnow's `recoverable_parse`: the output, if any, and the errors. A parser that fails adds its error to
those recorded; if it leaves something over, an empty error is recorded for that. `none` is a panic. -/
def recoverableParseD {α : Type} (p : D α) (s : Str) : Option (Option α × List Rec) :=
  match p s [] with
  | .ok a [] l => some (some a, l)
  | .ok a r l => some (some a, l ++ [({}, ⟨r, []⟩)])
  | .back e r l => some (none, l ++ [(e, ⟨s, r⟩)])
  | .cut e g r l => some (none, l ++ [(e, located g s r)])
  | .crash => none

/-- `src/v2_parser.rs:46-61`: the diagnostic for an error in an input of `total` bytes. -/
def Rec.diagnostic (total : Nat) (x : Rec) : Diagnostic where
  span := spanOf total x.2.start x.2.stop
  message := x.1.message.or (x.1.label.map ("Expected " ++ ·))
  label := x.1.label.map ("not " ++ ·)
  help := x.1.help

omit [FloatIO] in
/-- `src/v2_parser.rs:30-40` `try_parse` and `42-63` `failure_from_errs`: one diagnostic per error. -/
def tryParseD {α : Type} (p : Nat → D α) (s : Str) : DResult α :=
  match recoverableParseD (p (utf8Len s)) s with
  | some (some a, []) => .ok a
  | some (_, l) => .err (l.map (Rec.diagnostic (utf8Len s)))
  | none => .panic

/-- `src/document.rs:347-374` `KdlDocument::parse`, with diagnostics. -/
def Document.parseD (s : Str) : DResult Document := tryParseD documentD s
/-- `src/node.rs:338-348` `KdlNode::parse`, with diagnostics. -/
def Node.parseD (s : Str) : DResult Node := tryParseD paddedNodeD s
/-- `src/entry.rs:204-214` `KdlEntry::parse`, with diagnostics. -/
def Entry.parseD (s : Str) : DResult Entry := tryParseD paddedNodeEntryD s
omit [FloatIO] in
/-- `src/identifier.rs:97-107` `KdlIdentifier::parse`, with diagnostics. -/
def Ident.parseD (s : Str) : DResult Ident := tryParseD identifierD s

end Kdl
