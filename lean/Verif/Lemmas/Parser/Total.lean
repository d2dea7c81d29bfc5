import Verif.Lemmas.Parser.Core
import Verif.Model.Parser.Grammar
/-
Consumption and absence of panics, for every parser of the grammar.
-/

namespace Kdl

/-- One step of the syntactic search for `Sfx`, `Strict` and `OkTo` goals.
Extended with one rule per named parser. -/
syntax "pstep" : tactic

macro_rules | `(tactic| pstep) => `(tactic| with_reducible first
  | assumption
  | intro _
  | exact Sfx.pure _ | exact Sfx.here | exact Sfx.peek | exact Sfx.notP | exact Sfx.lit _
  | exact Sfx.eof
  | exact Strict.failP | exact Strict.cutP | exact Strict.satisfy _ | exact Strict.anyChar
  | exact Strict.takeWhile1 _ | exact Strict.takeWhile1to6 _
  | exact (Strict.failP).sfx | exact (Strict.cutP).sfx | exact (Strict.satisfy _).sfx
  | exact (Strict.anyChar).sfx | exact (Strict.takeWhile1 _).sfx | exact (Strict.takeWhile1to6 _).sfx
  | exact Strict.lit (by simp)
  | apply Sfx.bind | apply Sfx.alt | apply Sfx.opt | apply Sfx.cutErr | apply Sfx.void
  | apply Sfx.takeP | apply Sfx.mapOpt | apply Sfx.rep0 | apply Sfx.repTill | apply Sfx.sep1
  | apply Sfx.sep0
  | exact (Strict.rep1 (by assumption)).sfx
  | apply Strict.alt | apply Strict.cutErr | apply Strict.void | apply Strict.takeP
  | apply Strict.mapOpt | apply Strict.rep1
  | exact OkTo.pure _ _ | exact OkTo.here _ | exact OkTo.failP _ | exact OkTo.cutP _
  | exact OkTo.lit _ _ | exact OkTo.satisfy _ _ | exact OkTo.anyChar _ | exact OkTo.eof _
  | exact OkTo.takeWhile1 _ _ | exact OkTo.takeWhile1to6 _ _
  | apply OkTo.bind | apply OkTo.alt | apply OkTo.opt | apply OkTo.peek | apply OkTo.notP
  | apply OkTo.cutErr | apply OkTo.void | apply OkTo.takeP | apply OkTo.mapOpt
  | apply OkTo.rep0 | apply OkTo.rep1 | apply OkTo.repTill | apply OkTo.sep1 | apply OkTo.sep0
  | split)

/-- Search for `Sfx`, `Strict` and `OkTo` goals. -/
macro "psolve" : tactic => `(tactic| repeat' pstep)

/-! ### White space and comments -/

protected theorem Strict.newline : Strict newline := by unfold Kdl.newline; psolve
protected theorem OkTo.newline (n : Nat) : OkTo n newline := by unfold Kdl.newline; psolve
macro_rules | `(tactic| pstep) => `(tactic| with_reducible first
  | exact Strict.newline | exact Strict.newline.sfx | exact OkTo.newline _)

protected theorem Strict.unicodeSpace : Strict unicodeSpace := by unfold Kdl.unicodeSpace; psolve
protected theorem OkTo.unicodeSpace (n : Nat) : OkTo n unicodeSpace := by unfold Kdl.unicodeSpace; psolve
macro_rules | `(tactic| pstep) => `(tactic| with_reducible first
  | exact Strict.unicodeSpace | exact Strict.unicodeSpace.sfx | exact OkTo.unicodeSpace _)

protected theorem Strict.disallowedUnicode : Strict disallowedUnicode := by unfold Kdl.disallowedUnicode; psolve
protected theorem OkTo.disallowedUnicode (n : Nat) : OkTo n disallowedUnicode := by
  unfold Kdl.disallowedUnicode; psolve
macro_rules | `(tactic| pstep) => `(tactic| with_reducible first
  | exact Strict.disallowedUnicode | exact Strict.disallowedUnicode.sfx
  | exact OkTo.disallowedUnicode _)

protected theorem Strict.bom : Strict bom := by unfold Kdl.bom; psolve
protected theorem OkTo.bom (n : Nat) : OkTo n bom := by unfold Kdl.bom; psolve
protected theorem Strict.equalsSign : Strict equalsSign := by unfold Kdl.equalsSign; psolve
protected theorem OkTo.equalsSign (n : Nat) : OkTo n equalsSign := by unfold Kdl.equalsSign; psolve
macro_rules | `(tactic| pstep) => `(tactic| with_reducible first
  | exact Strict.bom | exact Strict.bom.sfx | exact OkTo.bom _
  | exact Strict.equalsSign | exact Strict.equalsSign.sfx | exact OkTo.equalsSign _)

protected theorem Strict.notThenAny {α : Type} {p : P α} : Strict (do notP p; anyChar) :=
  .bind_right Sfx.notP fun _ => Strict.anyChar
macro_rules | `(tactic| pstep) => `(tactic| with_reducible first
  | exact Strict.notThenAny | exact Strict.notThenAny.sfx)

protected theorem Strict.singleLineComment : Strict singleLineComment := by
  unfold Kdl.singleLineComment
  refine .bind_left (.lit (by simp)) ?_
  psolve
protected theorem OkTo.singleLineComment (n : Nat) : OkTo n singleLineComment := by
  unfold Kdl.singleLineComment; psolve
macro_rules | `(tactic| pstep) => `(tactic| with_reducible first
  | exact Strict.singleLineComment | exact Strict.singleLineComment.sfx
  | exact OkTo.singleLineComment _)

protected theorem Strict.commentedBlockN (k : Nat) : Strict (commentedBlockN k) := by
  induction k with
  | zero => intro s a r h; cases h
  | succ k ih =>
    unfold Kdl.commentedBlockN
    refine .alt (.lit (by simp)) (.bind_right ?_ fun _ => ih)
    have := ih.sfx
    have h2 : Sfx (rep1 (satisfy fun c => c != '*' && c != '/')) := (Strict.satisfy _).rep1.sfx
    psolve

protected theorem OkTo.commentedBlockN (k n : Nat) (h : n ≤ k) : OkTo n (commentedBlockN k) := by
  induction k generalizing n with
  | zero => intro s hs; omega
  | succ k ih =>
    unfold Kdl.commentedBlockN
    refine .alt (.lit _ _) ?_
    have hst : Strict ((do lit ['/', '*']; cutErr (Kdl.commentedBlockN k)) <+> lit ['*'] <+> lit ['/'] <+>
        void (Kdl.rep1 (Kdl.satisfy fun c => c != '*' && c != '/'))) := by
      refine .alt (.bind_left (.lit (by simp)) fun _ => (Strict.commentedBlockN k).cutErr.sfx) ?_
      psolve
    cases n with
    | zero => intro s hs; omega
    | succ n =>
      refine .bind_strict ?_ hst fun _ => ih n (by omega)
      refine .alt (.bind_strict (.lit _ _) (.lit (by simp)) fun _ => (ih n (by omega)).cutErr) ?_
      psolve

protected theorem Strict.multiLineComment : Strict multiLineComment := by
  intro s a r h
  exact Strict.bind_left (.lit (by simp)) (fun _ => (Strict.commentedBlockN _).cutErr.sfx) s a r h
protected theorem OkTo.multiLineComment (n : Nat) : OkTo n multiLineComment := by
  intro s _ h
  exact OkTo.bind (.lit _ _) (.lit _)
    (fun _ => (OkTo.commentedBlockN (s.length + 1) (s.length + 1) (by omega)).cutErr) s (by omega) h
macro_rules | `(tactic| pstep) => `(tactic| with_reducible first
  | exact Strict.multiLineComment | exact Strict.multiLineComment.sfx
  | exact OkTo.multiLineComment _)

protected theorem Strict.ws : Strict ws := by unfold Kdl.ws; psolve
protected theorem OkTo.ws (n : Nat) : OkTo n ws := by unfold Kdl.ws; psolve
macro_rules | `(tactic| pstep) => `(tactic| with_reducible first
  | exact Strict.ws | exact Strict.ws.sfx | exact OkTo.ws _)

protected theorem Sfx.wss : Sfx wss := by unfold Kdl.wss; psolve
protected theorem OkTo.wss (n : Nat) : OkTo n wss := by unfold Kdl.wss; psolve
protected theorem Strict.wsp : Strict wsp := by unfold Kdl.wsp; psolve
protected theorem OkTo.wsp (n : Nat) : OkTo n wsp := by unfold Kdl.wsp; psolve
macro_rules | `(tactic| pstep) => `(tactic| with_reducible first
  | exact Sfx.wss | exact OkTo.wss _ | exact Strict.wsp | exact Strict.wsp.sfx | exact OkTo.wsp _)

protected theorem Strict.escline : Strict escline := by
  unfold Kdl.escline
  refine .bind_left (.lit (by simp)) ?_
  psolve
protected theorem OkTo.escline (n : Nat) : OkTo n escline := by unfold Kdl.escline; psolve
macro_rules | `(tactic| pstep) => `(tactic| with_reducible first
  | exact Strict.escline | exact Strict.escline.sfx | exact OkTo.escline _)

protected theorem Strict.nodeSpace : Strict nodeSpace := by
  unfold Kdl.nodeSpace
  refine .alt (.bind_right .wss fun _ => .bind_left .escline fun _ => .wss) .wsp
protected theorem OkTo.nodeSpace (n : Nat) : OkTo n nodeSpace := by unfold Kdl.nodeSpace; psolve
macro_rules | `(tactic| pstep) => `(tactic| with_reducible first
  | exact Strict.nodeSpace | exact Strict.nodeSpace.sfx | exact OkTo.nodeSpace _)

protected theorem Sfx.nodeSpace0 : Sfx nodeSpace0 := by unfold Kdl.nodeSpace0; psolve
protected theorem OkTo.nodeSpace0 (n : Nat) : OkTo n nodeSpace0 := by unfold Kdl.nodeSpace0; psolve
protected theorem NoBack.nodeSpace0 : NoBack nodeSpace0 := (NoBack.rep0 _).void
protected theorem Strict.nodeSpace1 : Strict nodeSpace1 := by unfold Kdl.nodeSpace1; psolve
protected theorem OkTo.nodeSpace1 (n : Nat) : OkTo n nodeSpace1 := by unfold Kdl.nodeSpace1; psolve
macro_rules | `(tactic| pstep) => `(tactic| with_reducible first
  | exact Sfx.nodeSpace0 | exact OkTo.nodeSpace0 _
  | exact Strict.nodeSpace1 | exact Strict.nodeSpace1.sfx | exact OkTo.nodeSpace1 _)

protected theorem Strict.lineSpace : Strict lineSpace := by unfold Kdl.lineSpace; psolve
protected theorem OkTo.lineSpace (n : Nat) : OkTo n lineSpace := by unfold Kdl.lineSpace; psolve
protected theorem Strict.nodeTerminator : Strict nodeTerminator := by unfold Kdl.nodeTerminator; psolve
protected theorem OkTo.nodeTerminator (n : Nat) : OkTo n nodeTerminator := by unfold Kdl.nodeTerminator; psolve
macro_rules | `(tactic| pstep) => `(tactic| with_reducible first
  | exact Strict.lineSpace | exact Strict.lineSpace.sfx | exact OkTo.lineSpace _
  | exact Strict.nodeTerminator | exact Strict.nodeTerminator.sfx | exact OkTo.nodeTerminator _)

protected theorem Strict.slashdash : Strict slashdash := by
  unfold Kdl.slashdash
  refine .bind_left (.lit (by simp)) ?_
  psolve
protected theorem OkTo.slashdash (n : Nat) : OkTo n slashdash := by unfold Kdl.slashdash; psolve
protected theorem Sfx.valueTerminatorCheck : Sfx valueTerminatorCheck := by
  unfold Kdl.valueTerminatorCheck; psolve
protected theorem OkTo.valueTerminatorCheck (n : Nat) : OkTo n valueTerminatorCheck := by
  unfold Kdl.valueTerminatorCheck Kdl.valueTerminator; psolve
macro_rules | `(tactic| pstep) => `(tactic| with_reducible first
  | exact Strict.slashdash | exact Strict.slashdash.sfx | exact OkTo.slashdash _
  | exact Sfx.valueTerminatorCheck | exact OkTo.valueTerminatorCheck _)

/-! ### Strings -/

protected theorem Strict.identifierChar : Strict identifierChar := by
  unfold Kdl.identifierChar
  exact .bind_right Sfx.notP fun _ => Strict.satisfy _
protected theorem OkTo.identifierChar (n : Nat) : OkTo n identifierChar := by unfold Kdl.identifierChar; psolve
protected theorem Strict.digit1 : Strict digit1 := Strict.takeWhile1 _
protected theorem OkTo.digit1 (n : Nat) : OkTo n digit1 := OkTo.takeWhile1 _ _
macro_rules | `(tactic| pstep) => `(tactic| with_reducible first
  | exact Strict.identifierChar | exact Strict.identifierChar.sfx | exact OkTo.identifierChar _
  | exact Strict.digit1 | exact Strict.digit1.sfx | exact OkTo.digit1 _)

protected theorem Strict.unambiguousIdent : Strict unambiguousIdent := by
  unfold Kdl.unambiguousIdent
  refine .bind_right Sfx.notP fun _ => .bind_right Sfx.peek fun _ => ?_
  psolve
protected theorem OkTo.unambiguousIdent (n : Nat) : OkTo n unambiguousIdent := by
  unfold Kdl.unambiguousIdent; psolve
protected theorem Strict.signedIdent : Strict signedIdent := by
  unfold Kdl.signedIdent
  refine .bind_left (.alt (.lit (by simp)) (.lit (by simp))) ?_
  psolve
protected theorem OkTo.signedIdent (n : Nat) : OkTo n signedIdent := by unfold Kdl.signedIdent; psolve
protected theorem Sfx.signum : Sfx signum := by unfold Kdl.signum; psolve
protected theorem OkTo.signum (n : Nat) : OkTo n signum := by unfold Kdl.signum; psolve
macro_rules | `(tactic| pstep) => `(tactic| with_reducible first
  | exact Strict.unambiguousIdent | exact Strict.unambiguousIdent.sfx | exact OkTo.unambiguousIdent _
  | exact Strict.signedIdent | exact Strict.signedIdent.sfx | exact OkTo.signedIdent _
  | exact Sfx.signum | exact OkTo.signum _)
protected theorem Strict.dottedIdent : Strict dottedIdent := by
  unfold Kdl.dottedIdent
  refine .bind_right (by psolve) fun _ => .bind_left (.lit (by simp)) ?_
  psolve
protected theorem OkTo.dottedIdent (n : Nat) : OkTo n dottedIdent := by unfold Kdl.dottedIdent; psolve
macro_rules | `(tactic| pstep) => `(tactic| with_reducible first
  | exact Strict.dottedIdent | exact Strict.dottedIdent.sfx | exact OkTo.dottedIdent _)

protected theorem Strict.identifierString : Strict identifierString := by unfold Kdl.identifierString; psolve
protected theorem OkTo.identifierString (n : Nat) : OkTo n identifierString := by
  unfold Kdl.identifierString; psolve
protected theorem Strict.wsEscape : Strict wsEscape := by
  unfold Kdl.wsEscape
  refine .bind_left (.lit (by simp)) fun _ => Strict.sfx ?_
  psolve
protected theorem OkTo.wsEscape (n : Nat) : OkTo n wsEscape := by unfold Kdl.wsEscape; psolve
macro_rules | `(tactic| pstep) => `(tactic| with_reducible first
  | exact Strict.identifierString | exact Strict.identifierString.sfx | exact OkTo.identifierString _
  | exact Strict.wsEscape | exact Strict.wsEscape.sfx | exact OkTo.wsEscape _)

protected theorem Strict.escapedChar : Strict escapedChar := by
  unfold Kdl.escapedChar
  refine .bind_left (.lit (by simp)) ?_
  psolve
protected theorem OkTo.escapedChar (n : Nat) : OkTo n escapedChar := by unfold Kdl.escapedChar; psolve
protected theorem Strict.stringChar : Strict stringChar := by
  unfold Kdl.stringChar
  exact .alt .escapedChar (.bind_right Sfx.notP fun _ => .satisfy _)
protected theorem OkTo.stringChar (n : Nat) : OkTo n stringChar := by
  unfold Kdl.stringChar
  have := OkTo.escapedChar n
  psolve
macro_rules | `(tactic| pstep) => `(tactic| with_reducible first
  | exact Strict.stringChar | exact Strict.stringChar.sfx | exact OkTo.stringChar _)

protected theorem Strict.emptyLine : Strict emptyLine := by
  unfold Kdl.emptyLine
  exact .bind_right (by psolve) fun _ => .newline
protected theorem OkTo.emptyLine (n : Nat) : OkTo n emptyLine := by unfold Kdl.emptyLine; psolve
protected theorem Strict.mlChar : Strict mlChar := by
  unfold Kdl.mlChar
  refine .bind_right Sfx.notP fun _ => .alt (.bind_left .wsEscape ?_) (.alt ?_ (.alt ?_ ?_))
  · psolve
  · refine .bind_left (.lit (by simp)) ?_; psolve
  · refine .bind_left (.lit (by simp)) ?_; psolve
  · refine .bind_left .stringChar ?_; psolve
protected theorem OkTo.mlChar (n : Nat) : OkTo n mlChar := by unfold Kdl.mlChar; psolve
macro_rules | `(tactic| pstep) => `(tactic| with_reducible first
  | exact Strict.emptyLine | exact Strict.emptyLine.sfx | exact OkTo.emptyLine _
  | exact Strict.mlChar | exact Strict.mlChar.sfx | exact OkTo.mlChar _)

protected theorem Sfx.mlIndent : Sfx mlIndent := by unfold Kdl.mlIndent; psolve
protected theorem OkTo.mlIndent (n : Nat) : OkTo n mlIndent := by
  unfold Kdl.mlIndent
  have : Strict ((do wsEscape; return []) <+> takeP unicodeSpace) :=
    .alt (.bind_left .wsEscape fun _ => Sfx.pure _) Strict.unicodeSpace.takeP
  psolve
protected theorem Sfx.mlPrefix : Sfx mlPrefix := by unfold Kdl.mlPrefix; psolve
protected theorem OkTo.mlPrefix (n : Nat) : OkTo n mlPrefix := by
  unfold Kdl.mlPrefix
  have : Strict (do let _ ← rep0 mlChar; newline) := .bind_right (by psolve) fun _ => .newline
  have := Sfx.mlIndent
  have := OkTo.mlIndent n
  psolve
protected theorem Strict.mlLine (pre : Str) : Strict (mlLine pre) := by
  unfold Kdl.mlLine
  refine .bind_right (by psolve) fun _ => .alt (.bind_left .emptyLine fun _ => Sfx.pure _) ?_
  refine .bind_left (.repTill ?_ .newline) ?_
  · psolve
  · psolve
protected theorem OkTo.mlLine (n : Nat) (pre : Str) : OkTo n (mlLine pre) := by unfold Kdl.mlLine; psolve
protected theorem Sfx.mlBody (pre : Str) : Sfx (mlBody pre) := by
  unfold Kdl.mlBody
  have := (Strict.mlLine pre).sfx
  psolve
protected theorem OkTo.mlBody (n : Nat) (pre : Str) : OkTo n (mlBody pre) := by
  unfold Kdl.mlBody
  have := (Strict.mlLine pre)
  have := (Strict.mlLine pre).sfx
  have := OkTo.mlLine n pre
  psolve

/-- The element of a single-line string body. -/
protected theorem Strict.slItem : Strict (do
    cutErr (notP newline)
    (do wsEscape; return none) <+> (do let c ← stringChar; return some c)) := by
  refine .bind_right (by psolve) fun _ => .alt (.bind_left .wsEscape fun _ => Sfx.pure _)
    (.bind_left .stringChar fun _ => Sfx.pure _)
protected theorem Sfx.slBody : Sfx slBody := by unfold Kdl.slBody; psolve
protected theorem OkTo.slBody (n : Nat) : OkTo n slBody := by
  unfold Kdl.slBody
  have := Strict.slItem
  psolve
macro_rules | `(tactic| pstep) => `(tactic| with_reducible first
  | exact Sfx.mlPrefix | exact OkTo.mlPrefix _
  | exact Sfx.mlBody _ | exact OkTo.mlBody _ _ | exact Sfx.slBody | exact OkTo.slBody _)

protected theorem Strict.quotedString : Strict quotedString := by
  unfold Kdl.quotedString
  refine .bind_left (.alt (.bind_left (.lit (by simp [tripleQuote])) ?_) (.bind_left (.lit (by simp)) ?_)) ?_
  · psolve
  · psolve
  · psolve
protected theorem OkTo.quotedString (n : Nat) : OkTo n quotedString := by unfold Kdl.quotedString; psolve

protected theorem Sfx.rawMlPrefix (h : Str) : Sfx (rawMlPrefix h) := Sfx.peek
protected theorem OkTo.rawMlPrefix (n : Nat) (h : Str) : OkTo n (rawMlPrefix h) := by
  unfold Kdl.rawMlPrefix
  have h1 : Strict (do
          notP newline
          notP disallowedUnicode
          notP (do lit tripleQuote; lit h)
          anyChar) :=
    .bind_right Sfx.notP fun _ => .bind_right Sfx.notP fun _ => .bind_right Sfx.notP fun _ => .anyChar
  have h2 : Strict (do
        let _ ← rep0 (do
          notP newline
          notP disallowedUnicode
          notP (do lit tripleQuote; lit h)
          anyChar)
        newline) := .bind_right h1.sfx.rep0 fun _ => .newline
  psolve
protected theorem Strict.rawMlLine (h pre : Str) : Strict (rawMlLine h pre) := by
  unfold Kdl.rawMlLine
  refine .bind_right (by psolve) fun _ => .alt (.bind_left .emptyLine fun _ => Sfx.pure _) ?_
  refine .bind_left (.repTill ?_ .newline) ?_
  · psolve
  · psolve
protected theorem OkTo.rawMlLine (n : Nat) (h pre : Str) : OkTo n (rawMlLine h pre) := by
  unfold Kdl.rawMlLine
  have h1 : Strict (do notP newline; notP (do lit tripleQuote; lit h); anyChar) :=
    .bind_right Sfx.notP fun _ => .bind_right Sfx.notP fun _ => .anyChar
  psolve
protected theorem Sfx.rawMlBody (h pre : Str) : Sfx (rawMlBody h pre) := by
  unfold Kdl.rawMlBody
  have := (Strict.rawMlLine h pre).sfx
  psolve
protected theorem OkTo.rawMlBody (n : Nat) (h pre : Str) : OkTo n (rawMlBody h pre) := by
  unfold Kdl.rawMlBody
  have := (Strict.rawMlLine h pre)
  have := (Strict.rawMlLine h pre).sfx
  have := OkTo.rawMlLine n h pre
  psolve
protected theorem Strict.rawSlItem (h : Str) : Strict (do
      notP disallowedUnicode
      notP newline
      notP (do lit ['"']; lit h)
      anyChar) :=
  .bind_right Sfx.notP fun _ => .bind_right Sfx.notP fun _ => .bind_right Sfx.notP fun _ => .anyChar
protected theorem Sfx.rawSlBody (h : Str) : Sfx (rawSlBody h) := by unfold Kdl.rawSlBody; psolve
protected theorem OkTo.rawSlBody (n : Nat) (h : Str) : OkTo n (rawSlBody h) := by
  unfold Kdl.rawSlBody
  have := Strict.rawSlItem h
  psolve
macro_rules | `(tactic| pstep) => `(tactic| with_reducible first
  | exact Strict.quotedString | exact Strict.quotedString.sfx | exact OkTo.quotedString _
  | exact Sfx.rawMlPrefix _ | exact OkTo.rawMlPrefix _ _
  | exact Sfx.rawMlBody _ _ | exact OkTo.rawMlBody _ _ _
  | exact Sfx.rawSlBody _ | exact OkTo.rawSlBody _ _)

protected theorem Strict.rawString : Strict rawString := by
  unfold Kdl.rawString
  refine .bind_left (Strict.takeP (Strict.rep1 (Strict.lit (by simp)))) ?_
  psolve
protected theorem OkTo.rawString (n : Nat) : OkTo n rawString := by
  unfold Kdl.rawString
  have h1 : Sfx (rep1 (lit ['#'])) := (Strict.rep1 (Strict.lit (by simp))).sfx
  psolve
macro_rules | `(tactic| pstep) => `(tactic| with_reducible first
  | exact Strict.rawString | exact Strict.rawString.sfx | exact OkTo.rawString _)

protected theorem Strict.stringP : Strict stringP := by
  unfold Kdl.stringP
  refine .alt (.bind_left .identifierString ?_) (.alt (.bind_left .rawString ?_)
    (.bind_left .quotedString ?_))
  all_goals psolve
protected theorem OkTo.stringP (n : Nat) : OkTo n stringP := by unfold Kdl.stringP; psolve
macro_rules | `(tactic| pstep) => `(tactic| with_reducible first
  | exact Strict.stringP | exact Strict.stringP.sfx | exact OkTo.stringP _)

protected theorem Strict.identifier (total : Nat) : Strict (identifier total) := by
  unfold Kdl.identifier
  refine .bind_right Sfx.here fun _ => .bind_left .stringP ?_
  psolve
protected theorem OkTo.identifier (total n : Nat) : OkTo n (identifier total) := by
  unfold Kdl.identifier; psolve
macro_rules | `(tactic| pstep) => `(tactic| with_reducible first
  | exact Strict.identifier _ | exact (Strict.identifier _).sfx | exact OkTo.identifier _ _)

/-! ### Numbers -/

protected theorem Strict.digitGroup (f : Char → Bool) : Strict (digitGroup f) := by
  unfold Kdl.digitGroup
  refine .bind_left (.takeWhile1 f) ?_
  psolve
protected theorem OkTo.digitGroup (n : Nat) (f : Char → Bool) : OkTo n (digitGroup f) := by
  unfold Kdl.digitGroup
  have : Strict (takeP (lit ['_']) <+> takeWhile1 f) := by psolve
  psolve
macro_rules | `(tactic| pstep) => `(tactic| with_reducible first
  | exact Strict.digitGroup _ | exact (Strict.digitGroup _).sfx | exact OkTo.digitGroup _ _)

protected theorem Strict.udecimal : Strict udecimal := by unfold Kdl.udecimal; psolve
protected theorem OkTo.udecimal (n : Nat) : OkTo n udecimal := by unfold Kdl.udecimal; psolve
protected theorem Strict.uhex : Strict uhex := by
  unfold Kdl.uhex; refine .bind_left (by psolve) ?_; psolve
protected theorem OkTo.uhex (n : Nat) : OkTo n uhex := by unfold Kdl.uhex; psolve
protected theorem Strict.uoctal : Strict uoctal := by
  unfold Kdl.uoctal; refine .bind_left (by psolve) ?_; psolve
protected theorem OkTo.uoctal (n : Nat) : OkTo n uoctal := by unfold Kdl.uoctal; psolve
protected theorem Strict.ubinary : Strict ubinary := by
  unfold Kdl.ubinary; refine .bind_left (by psolve) ?_; psolve
protected theorem OkTo.ubinary (n : Nat) : OkTo n ubinary := by
  unfold Kdl.ubinary
  have : Strict (takeP (lit ['0'] <+> lit ['1'] <+> lit ['_'])) := by psolve
  psolve

/-- The unsigned parsers never return a negative number. -/
def NonNeg (p : P I128) : Prop := ∀ s x r, p s = .ok x r → 0 ≤ x.val

theorem fromStrRadix_nonneg {radix : Nat} {s : Str} {x : I128} (h : fromStrRadix radix s = some x) :
    0 ≤ x.val := by
  unfold fromStrRadix I128.ofInt? at h
  split at h
  · cases h; exact Int.natCast_nonneg _
  · simp at h

protected theorem NonNeg.mapOpt {p : P Str} {radix : Nat} : NonNeg (mapOpt p (fromStrRadix radix)) := by
  intro s x r h
  obtain ⟨t, _, h⟩ := mapOpt_ok.mp h
  exact fromStrRadix_nonneg h

protected theorem NonNeg.udecimal : NonNeg udecimal := NonNeg.mapOpt
protected theorem NonNeg.uhex : NonNeg uhex := by
  intro s x r h
  obtain ⟨_, _, _, h⟩ := bind_ok.mp h
  exact NonNeg.mapOpt _ _ _ h
protected theorem NonNeg.uoctal : NonNeg uoctal := by
  intro s x r h
  obtain ⟨_, _, _, h⟩ := bind_ok.mp h
  exact NonNeg.mapOpt _ _ _ h
protected theorem NonNeg.ubinary : NonNeg ubinary := by
  intro s x r h
  obtain ⟨_, _, _, h⟩ := bind_ok.mp h
  exact NonNeg.mapOpt _ _ _ (cutErr_ok.mp h)

theorem negatedP_ok (x : I128) (h : 0 ≤ x.val) (s : Str) :
    ∃ y : I128, y.val = -x.val ∧ negatedP x s = .ok y s := by
  have hx := x.property
  have : i128Min ≤ -x.val ∧ -x.val ≤ i128Max := by
    simp only [i128Min, i128Max] at *; omega
  refine ⟨⟨-x.val, this⟩, rfl, ?_⟩
  simp [negatedP, I128.ofInt?, this]

protected theorem Sfx.negatedP (x : I128) : Sfx (negatedP x) := by
  intro s a r h
  unfold Kdl.negatedP at h
  split at h
  · cases h; exact ⟨[], rfl⟩
  · simp at h

protected theorem Strict.signedP {p : P I128} (hp : Strict p) : Strict (signedP p) := by
  unfold Kdl.signedP
  refine .bind_right .signum fun b => .bind_left hp fun x => ?_
  split
  · exact Sfx.pure _
  · exact Sfx.negatedP _

protected theorem OkTo.signedP {p : P I128} {n : Nat} (hp : OkTo n p) (hn : NonNeg p) :
    OkTo n (signedP p) := by
  unfold Kdl.signedP
  refine .bind (.signum n) .signum fun b => ?_
  intro s hl h
  cases hps : p s with
  | ok x r =>
    rw [bind_eq hps] at h
    split at h
    · cases h
    · obtain ⟨y, _, hy⟩ := negatedP_ok x (hn _ _ _ hps) r
      rw [hy] at h; cases h
  | back => rw [bind_back hps] at h; cases h
  | cut => rw [bind_cut hps] at h; cases h
  | crash => exact hp s hl hps

protected theorem Strict.decimal : Strict decimal := Strict.udecimal.signedP
protected theorem OkTo.decimal (n : Nat) : OkTo n decimal := (OkTo.udecimal n).signedP .udecimal
protected theorem Strict.hex : Strict hex := Strict.uhex.signedP
protected theorem OkTo.hex (n : Nat) : OkTo n hex := (OkTo.uhex n).signedP .uhex
protected theorem Strict.octal : Strict octal := Strict.uoctal.signedP
protected theorem OkTo.octal (n : Nat) : OkTo n octal := (OkTo.uoctal n).signedP .uoctal
protected theorem Strict.binary : Strict binary := Strict.ubinary.signedP
protected theorem OkTo.binary (n : Nat) : OkTo n binary := (OkTo.ubinary n).signedP .ubinary
macro_rules | `(tactic| pstep) => `(tactic| with_reducible first
  | exact Strict.udecimal | exact Strict.udecimal.sfx | exact OkTo.udecimal _
  | exact Strict.decimal | exact Strict.decimal.sfx | exact OkTo.decimal _
  | exact Strict.hex | exact Strict.hex.sfx | exact OkTo.hex _
  | exact Strict.octal | exact Strict.octal.sfx | exact OkTo.octal _
  | exact Strict.binary | exact Strict.binary.sfx | exact OkTo.binary _)

protected theorem Strict.floatExp : Strict floatExp := by
  unfold Kdl.floatExp; refine .bind_left .decimal ?_; psolve
protected theorem OkTo.floatExp (n : Nat) : OkTo n floatExp := by unfold Kdl.floatExp; psolve
protected theorem Strict.floatFrac : Strict floatFrac := by
  unfold Kdl.floatFrac; refine .bind_left .decimal ?_; psolve
protected theorem OkTo.floatFrac (n : Nat) : OkTo n floatFrac := by unfold Kdl.floatFrac; psolve
macro_rules | `(tactic| pstep) => `(tactic| with_reducible first
  | exact Strict.floatExp | exact Strict.floatExp.sfx | exact OkTo.floatExp _
  | exact Strict.floatFrac | exact Strict.floatFrac.sfx | exact OkTo.floatFrac _)

protected theorem Strict.integerValue : Strict integerValue := by
  unfold Kdl.integerValue
  refine .bind_left (.alt (.bind_left .hex ?_) (.alt (.bind_left .octal ?_)
    (.alt (.bind_left .binary ?_) (.bind_left .decimal ?_)))) ?_
  all_goals psolve
protected theorem OkTo.integerValue (n : Nat) : OkTo n integerValue := by unfold Kdl.integerValue; psolve

section
variable [FloatIO]

protected theorem Strict.floatValue : Strict floatValue := by
  unfold Kdl.floatValue
  refine .bind_left ?_ ?_ <;> psolve
protected theorem OkTo.floatValue (n : Nat) : OkTo n floatValue := by unfold Kdl.floatValue; psolve
protected theorem Strict.number : Strict number := Strict.floatValue.alt Strict.integerValue
protected theorem OkTo.number (n : Nat) : OkTo n number := (OkTo.floatValue n).alt (OkTo.integerValue n)
protected theorem Strict.keyword : Strict keyword := by
  unfold Kdl.keyword; refine .bind_left (.lit (by simp)) ?_; psolve
protected theorem OkTo.keyword (n : Nat) : OkTo n keyword := by unfold Kdl.keyword; psolve
macro_rules | `(tactic| pstep) => `(tactic| with_reducible first
  | exact Strict.number | exact Strict.number.sfx | exact OkTo.number _
  | exact Strict.keyword | exact Strict.keyword.sfx | exact OkTo.keyword _)

/-! ### Entries -/

protected theorem Strict.tyP (total : Nat) : Strict (tyP total) := by
  unfold Kdl.tyP; refine .bind_left (.lit (by simp)) ?_; psolve
protected theorem OkTo.tyP (total n : Nat) : OkTo n (tyP total) := by unfold Kdl.tyP; psolve
protected theorem Strict.valueBody : Strict valueBody := by
  unfold Kdl.valueBody
  refine .alt .keyword (.alt .number (.bind_left .stringP fun _ => Sfx.pure _))
protected theorem OkTo.valueBody (n : Nat) : OkTo n valueBody := by unfold Kdl.valueBody; psolve
macro_rules | `(tactic| pstep) => `(tactic| with_reducible first
  | exact Strict.tyP _ | exact (Strict.tyP _).sfx | exact OkTo.tyP _ _
  | exact Strict.valueBody | exact Strict.valueBody.sfx | exact OkTo.valueBody _)

protected theorem Strict.value (total : Nat) : Strict (value total) := by
  unfold Kdl.value
  refine .bind_right .here fun _ => .bind_right (by psolve) fun _ => .bind_right .here fun _ =>
    .bind_left .valueBody ?_
  psolve
protected theorem OkTo.value (total n : Nat) : OkTo n (value total) := by unfold Kdl.value; psolve
macro_rules | `(tactic| pstep) => `(tactic| with_reducible first
  | exact Strict.value _ | exact (Strict.value _).sfx | exact OkTo.value _ _)

protected theorem Strict.slashdashedEntriesF {entry : P Entry} (h : Sfx entry) :
    Strict (slashdashedEntriesF entry) := by
  unfold Kdl.slashdashedEntriesF
  exact (Strict.sep1 (.bind_left .slashdash fun _ => h) Strict.nodeSpace1.sfx).void
protected theorem OkTo.slashdashedEntriesF {entry : P Entry} {n : Nat} (h : Sfx entry) (hn : OkTo n entry) :
    OkTo (n + 1) (slashdashedEntriesF entry) := by
  unfold Kdl.slashdashedEntriesF
  exact (OkTo.sep1 (.bind_strict (.slashdash _) .slashdash fun _ => hn)
    (Strict.slashdash.bind_left fun _ => h).sfx (.nodeSpace1 _) .nodeSpace1).void

protected theorem Sfx.entryLeadingF {entry : P Entry} (h : Sfx entry) : Sfx (entryLeadingF entry) := by
  unfold Kdl.entryLeadingF
  have := (Strict.slashdashedEntriesF h).sfx
  psolve
protected theorem OkTo.entryLeadingF {entry : P Entry} {n : Nat} (h : Sfx entry) (hn : OkTo n entry) :
    OkTo (n + 1) (entryLeadingF entry) := by
  unfold Kdl.entryLeadingF
  have := (Strict.slashdashedEntriesF h).sfx
  have := OkTo.slashdashedEntriesF h hn
  psolve

protected theorem Strict.entryBody (total : Nat) : Strict (entryBody total) := by
  intro s e r h
  unfold Kdl.entryBody at h
  obtain ⟨o, q, h1, h2⟩ := bind_ok.mp h
  rcases opt_ok.mp h1 with ⟨i, rfl, h1'⟩ | ⟨rfl, rfl, h1'⟩
  · obtain ⟨t, hne, rfl⟩ := Strict.identifier _ _ _ _ h1'
    have : Sfx (Kdl.entryBody total) := by unfold Kdl.entryBody; psolve
    obtain ⟨t', ht'⟩ := this _ _ _ h
    have hs : ∃ t'', q = t'' ++ r := by
      refine Sfx.bind (p := opt (do let k ← Kdl.takeP Kdl.nodeSpace0; Kdl.equalsSign; return k)) ?_ ?_ q e r h2
      · psolve
      · psolve
    obtain ⟨t'', rfl⟩ := hs
    exact ⟨t ++ t'', by simp [hne], by simp⟩
  · exact Strict.value _ _ _ _ h2
protected theorem OkTo.entryBody (total n : Nat) : OkTo n (entryBody total) := by unfold Kdl.entryBody; psolve
macro_rules | `(tactic| pstep) => `(tactic| with_reducible first
  | exact Strict.entryBody _ | exact (Strict.entryBody _).sfx | exact OkTo.entryBody _ _)

protected theorem Strict.nodeEntryF (total : Nat) {entry : P Entry} (h : Sfx entry) :
    Strict (nodeEntryF total entry) := by
  unfold Kdl.nodeEntryF
  refine .bind_right (.entryLeadingF h) fun _ => .bind_right .here fun _ =>
    .bind_left (.entryBody _) ?_
  psolve
protected theorem OkTo.nodeEntryF (total : Nat) {entry : P Entry} {n : Nat} (h : Sfx entry)
    (hn : OkTo n entry) : OkTo (n + 1) (nodeEntryF total entry) := by
  unfold Kdl.nodeEntryF
  have := OkTo.entryLeadingF h hn
  have := Sfx.entryLeadingF h
  psolve

protected theorem Strict.nodeEntryN (total k : Nat) : Strict (nodeEntryN total k) := by
  induction k with
  | zero => intro s a r h; cases h
  | succ k ih => exact Strict.nodeEntryF total ih.sfx

protected theorem OkTo.nodeEntryN (total k : Nat) : OkTo k (nodeEntryN total k) := by
  induction k with
  | zero => intro s hs; omega
  | succ k ih => exact OkTo.nodeEntryF total (Strict.nodeEntryN total k).sfx ih

protected theorem Strict.nodeEntry (total : Nat) : Strict (nodeEntry total) := by
  intro s a r h; exact Strict.nodeEntryN total _ s a r h
protected theorem OkTo.nodeEntry (total n : Nat) : OkTo n (nodeEntry total) := by
  intro s _ h; exact OkTo.nodeEntryN total _ s (by omega) h
macro_rules | `(tactic| pstep) => `(tactic| with_reducible first
  | exact Strict.nodeEntry _ | exact (Strict.nodeEntry _).sfx | exact OkTo.nodeEntry _ _)

protected theorem Strict.slashdashedEntries (total : Nat) : Strict (slashdashedEntries total) :=
  Strict.slashdashedEntriesF (Strict.nodeEntry total).sfx
protected theorem OkTo.slashdashedEntries (total n : Nat) : OkTo n (slashdashedEntries total) :=
  (OkTo.slashdashedEntriesF (Strict.nodeEntry total).sfx (.nodeEntry total n)).mono (by omega)
macro_rules | `(tactic| pstep) => `(tactic| with_reducible first
  | exact Strict.slashdashedEntries _ | exact (Strict.slashdashedEntries _).sfx
  | exact OkTo.slashdashedEntries _ _)

/-! ### Nodes and documents -/

section
variable {base : P Node}

protected theorem Sfx.leadingItems (h : Sfx base) : Sfx (leadingItems base) := by
  unfold Kdl.leadingItems; psolve
protected theorem OkTo.leadingItems {n : Nat} (h : Sfx base) (hn : OkTo n base) :
    OkTo (n + 1) (leadingItems base) := by
  unfold Kdl.leadingItems
  refine .takeP (.rep0 (.alt (.lineSpace _) (.bind_strict (.slashdash _) .slashdash fun _ => hn.void)) ?_)
  exact .alt .lineSpace (.bind_left .slashdash fun _ => h.void)

protected theorem Strict.nodeF (h : Strict base) : Strict (nodeF base) := by
  unfold Kdl.nodeF
  refine .bind_right (.leadingItems h.sfx) fun _ => .bind_left h ?_
  psolve
protected theorem OkTo.nodeF {n : Nat} (h : Sfx base) (hn : OkTo n base) :
    OkTo n (nodeF base) := by
  unfold Kdl.nodeF
  have := Sfx.leadingItems h
  have := (OkTo.leadingItems h hn).mono (Nat.le_succ n)
  psolve

protected theorem Sfx.nodesF (total : Nat) (h : Strict base) : Sfx (nodesF total base) := by
  unfold Kdl.nodesF
  have := Sfx.leadingItems h.sfx
  have := (Strict.nodeF h).sfx
  psolve
protected theorem OkTo.nodesF (total : Nat) {n : Nat} (h : Strict base) (hn : OkTo n base) :
    OkTo n (nodesF total base) := by
  unfold Kdl.nodesF
  have := Sfx.leadingItems h.sfx
  have := (OkTo.leadingItems h.sfx hn).mono (Nat.le_succ n)
  have := (Strict.nodeF h).sfx
  have := OkTo.nodeF h.sfx hn
  psolve

protected theorem Strict.nodeChildrenF (total : Nat) (h : Strict base) :
    Strict (nodeChildrenF total base) := by
  unfold Kdl.nodeChildrenF
  have := Sfx.nodesF total h
  refine .bind_left (.lit (by simp)) ?_
  psolve
protected theorem OkTo.nodeChildrenF (total : Nat) {n : Nat} (h : Strict base) (hn : OkTo n base) :
    OkTo (n + 1) (nodeChildrenF total base) := by
  unfold Kdl.nodeChildrenF
  have := Sfx.nodesF total h
  have := OkTo.nodesF total h hn
  refine .bind_strict (.lit _ _) (.lit (by simp)) ?_
  psolve

protected theorem Strict.slashdashedChildrenF (total : Nat) (h : Strict base) :
    Strict (slashdashedChildrenF total base) := by
  unfold Kdl.slashdashedChildrenF
  exact .bind_right .nodeSpace0 fun _ =>
    (Strict.sep1 (.bind_left .slashdash fun _ => (Strict.nodeChildrenF total h).sfx.void)
      Strict.nodeSpace1.sfx).void
protected theorem OkTo.slashdashedChildrenF (total : Nat) {n : Nat} (h : Strict base)
    (hn : OkTo n base) : OkTo (n + 1) (slashdashedChildrenF total base) := by
  unfold Kdl.slashdashedChildrenF
  have := (Strict.nodeChildrenF total h).sfx
  have := OkTo.nodeChildrenF total h hn
  psolve

protected theorem Sfx.beforeNodeChildrenF (total : Nat) (h : Strict base) :
    Sfx (beforeNodeChildrenF total base) := by
  unfold Kdl.beforeNodeChildrenF
  have := (Strict.slashdashedChildrenF total h).sfx
  psolve
protected theorem OkTo.beforeNodeChildrenF (total : Nat) {n : Nat} (h : Strict base)
    (hn : OkTo n base) : OkTo (n + 1) (beforeNodeChildrenF total base) := by
  unfold Kdl.beforeNodeChildrenF
  have := (Strict.slashdashedChildrenF total h).sfx
  have := OkTo.slashdashedChildrenF total h hn
  psolve
protected theorem NoBack.beforeNodeChildrenF (total : Nat) :
    NoBack (beforeNodeChildrenF total base) := by
  unfold Kdl.beforeNodeChildrenF
  exact .bind (.alt_right (.alt_right (.alt_right .nodeSpace0))) fun _ => .nodeSpace0

protected theorem Sfx.entriesP (total : Nat) : Sfx (entriesP total) := by
  unfold Kdl.entriesP; psolve
protected theorem OkTo.entriesP (total n : Nat) : OkTo n (entriesP total) := by
  unfold Kdl.entriesP
  have : Strict (do let _ ← peek nodeSpace1; nodeEntry total) :=
    .bind_right Sfx.peek fun _ => .nodeEntry total
  psolve

protected theorem Sfx.childrenP (total : Nat) (h : Strict base) : Sfx (childrenP total base) := by
  unfold Kdl.childrenP
  have := Sfx.beforeNodeChildrenF total h
  have := (Strict.nodeChildrenF total h).sfx
  psolve
protected theorem OkTo.childrenP (total : Nat) {n : Nat} (h : Strict base) (hn : OkTo n base) :
    OkTo (n + 1) (childrenP total base) := by
  unfold Kdl.childrenP
  have := Sfx.beforeNodeChildrenF total h
  have := OkTo.beforeNodeChildrenF total h hn
  have := (Strict.nodeChildrenF total h).sfx
  have := OkTo.nodeChildrenF total h hn
  psolve

protected theorem Sfx.tailP (total : Nat) (b : Bool) (h : Strict base) :
    Sfx (tailP total base b) := by
  unfold Kdl.tailP Kdl.tailText
  have := Sfx.beforeNodeChildrenF total h
  have := (Strict.slashdashedChildrenF total h).sfx
  psolve
protected theorem OkTo.tailP (total : Nat) (b : Bool) {n : Nat} (h : Strict base)
    (hn : OkTo n base) : OkTo (n + 1) (tailP total base b) := by
  unfold Kdl.tailP Kdl.tailText
  have := Sfx.beforeNodeChildrenF total h
  have := OkTo.beforeNodeChildrenF total h hn
  have := (Strict.slashdashedChildrenF total h).sfx
  have := OkTo.slashdashedChildrenF total h hn
  psolve
protected theorem NoBack.tailP (total : Nat) (b : Bool) : NoBack (tailP total base b) := by
  unfold Kdl.tailP Kdl.tailText
  refine .bind ?_ fun _ => .bind (.peek (.takeP (.opt _))) fun _ => .pure _
  split
  · exact .takeP (.opt _)
  · exact .takeP (.beforeNodeChildrenF total)

protected theorem Strict.baseNodeF (total : Nat) (h : Strict base) :
    Strict (baseNodeF total base) := by
  unfold Kdl.baseNodeF
  have := Sfx.entriesP total
  have := Sfx.childrenP total h
  have := fun b => Sfx.tailP total b h
  refine .bind_right .notP fun _ => .bind_right .here fun _ => .bind_right (Sfx.notP.cutErr) fun _ =>
    .bind_right (by psolve) fun _ => .bind_right (by psolve) fun _ =>
    .bind_left (.cutErr (.identifier _)) fun _ => ?_
  split
  · psolve
  · refine .bind (by assumption) fun _ => .bind (by assumption) fun _ => .bind (this _) fun _ => ?_
    psolve
protected theorem OkTo.baseNodeF (total : Nat) {n : Nat} (h : Strict base) (hn : OkTo n base) :
    OkTo (n + 1) (baseNodeF total base) := by
  unfold Kdl.baseNodeF
  have := Sfx.entriesP total
  have := Sfx.childrenP total h
  have h1 := fun b => Sfx.tailP total b h
  have := OkTo.entriesP total (n + 1)
  have := OkTo.childrenP total h hn
  have h2 := fun b => OkTo.tailP total b h hn
  refine .bind (by psolve) .notP fun _ => .bind (by psolve) .here fun _ =>
    .bind (by psolve) (Sfx.notP.cutErr) fun _ => .bind (by psolve) (by psolve) fun _ =>
    .bind (by psolve) (by psolve) fun _ => .bind (by psolve) (by psolve) fun _ => ?_
  split
  · psolve
  · refine .bind (by assumption) (by assumption) fun _ => .bind (by assumption) (by assumption)
      fun _ => .bind (h2 _) (h1 _) fun _ => ?_
    psolve
end

protected theorem Strict.baseNodeN (total k : Nat) : Strict (baseNodeN total k) := by
  induction k with
  | zero => intro s a r h; cases h
  | succ k ih => exact Strict.baseNodeF total ih
protected theorem OkTo.baseNodeN (total k : Nat) : OkTo k (baseNodeN total k) := by
  induction k with
  | zero => intro s hs; omega
  | succ k ih => exact OkTo.baseNodeF total (Strict.baseNodeN total k) ih

protected theorem Strict.baseNode (total : Nat) : Strict (baseNode total) := by
  intro s a r h; exact Strict.baseNodeN total _ s a r h
protected theorem OkTo.baseNode (total n : Nat) : OkTo n (baseNode total) := by
  intro s _ h; exact OkTo.baseNodeN total _ s (by omega) h

protected theorem Sfx.paddedNode (total : Nat) : Sfx (paddedNode total) := by
  unfold Kdl.paddedNode
  have := (Strict.nodeF (Strict.baseNode total)).sfx
  psolve
protected theorem OkTo.paddedNode (total n : Nat) : OkTo n (paddedNode total) := by
  unfold Kdl.paddedNode
  have := (Strict.nodeF (Strict.baseNode total)).sfx
  have := OkTo.nodeF (Strict.baseNode total).sfx (OkTo.baseNode total n)
  psolve
protected theorem Sfx.paddedNodeEntry (total : Nat) : Sfx (paddedNodeEntry total) := by
  unfold Kdl.paddedNodeEntry; psolve
protected theorem OkTo.paddedNodeEntry (total n : Nat) : OkTo n (paddedNodeEntry total) := by
  unfold Kdl.paddedNodeEntry; psolve
protected theorem Sfx.documentP (total : Nat) : Sfx (documentP total) := by
  unfold Kdl.documentP
  have := Sfx.nodesF total (Strict.baseNode total)
  psolve
protected theorem OkTo.documentP (total n : Nat) : OkTo n (documentP total) := by
  unfold Kdl.documentP
  have := Sfx.nodesF total (Strict.baseNode total)
  have := OkTo.nodesF total (Strict.baseNode total) (OkTo.baseNode total n)
  psolve

end
end Kdl
