import Verif.Model.DiagLex
import Verif.Lemmas.Parser.Core
/-
The lexical parsers with diagnostics are those of the strict model once errors and positions are dropped, and
they stop inside their input.
-/

namespace Kdl

/-- Drops the error and the position. -/
def LRes.erase {α : Type} : LRes α → Res α
  | .ok a r => .ok a r
  | .back _ _ => .back
  | .cut _ _ => .cut
  | .crash => .crash

/-- The parser stopped at the end of `s`, whether it failed or not. -/
def LRes.Inside {α : Type} (s : Str) : LRes α → Prop
  | .ok _ r => r <:+ s
  | .back _ r => r <:+ s
  | .cut _ r => r <:+ s
  | .crash => True

/-- `p` does what `q` does, with diagnostics. -/
def LTr {α : Type} (p : L α) (q : P α) : Prop := ∀ s, (p s).erase = q s ∧ (p s).Inside s

theorem LRes.Inside.mono {α : Type} {x : LRes α} {r s : Str} (h : x.Inside r) (hr : r <:+ s) : x.Inside s := by
  cases x <;> simp only [LRes.Inside] at * <;> first | exact h.trans hr | trivial

namespace LTr
variable {α β : Type}

theorem pure (a : α) : LTr (Pure.pure a) (Pure.pure a) := fun s => ⟨rfl, List.suffix_refl s⟩

theorem bind {p : L α} {q : P α} {f : α → L β} {g : α → P β} (h : LTr p q) (hf : ∀ a, LTr (f a) (g a)) :
    LTr (p >>= f) (q >>= g) := by
  intro s
  obtain ⟨h1, h2⟩ := h s
  change (L.bind p f s).erase = P.bind q g s ∧ (L.bind p f s).Inside s
  unfold L.bind P.bind
  rw [← h1]
  rcases hp : p s with ⟨a, r⟩ | ⟨e, r⟩ | ⟨e, r⟩ | _ <;> rw [hp] at h2
  · exact ⟨(hf a r).1, (hf a r).2.mono h2⟩
  all_goals exact ⟨rfl, h2⟩

theorem alt {p p' : L α} {q q' : P α} (h : LTr p q) (h' : LTr p' q') : LTr (p <|+> p') (q <+> q') := by
  intro s
  obtain ⟨h1, h2⟩ := h s
  unfold L.alt P.alt
  rw [← h1]
  rcases hp : p s with ⟨a, r⟩ | ⟨e, r⟩ | ⟨e, r⟩ | _ <;> rw [hp] at h2
  · exact ⟨rfl, h2⟩
  · exact h' s
  all_goals exact ⟨rfl, h2⟩

theorem here : LTr L.here Kdl.here := fun s => ⟨rfl, List.suffix_refl s⟩

theorem opt {p : L α} {q : P α} (h : LTr p q) : LTr (L.opt p) (Kdl.opt q) := by
  intro s
  obtain ⟨h1, h2⟩ := h s
  unfold L.opt Kdl.opt
  rw [← h1]
  rcases hp : p s with ⟨a, r⟩ | ⟨e, r⟩ | ⟨e, r⟩ | _ <;> rw [hp] at h2
  · exact ⟨rfl, h2⟩
  · exact ⟨rfl, List.suffix_refl s⟩
  all_goals exact ⟨rfl, h2⟩

theorem peek {p : L α} {q : P α} (h : LTr p q) : LTr (L.peek p) (Kdl.peek q) := by
  intro s
  obtain ⟨h1, h2⟩ := h s
  unfold L.peek Kdl.peek
  rw [← h1]
  rcases p s with ⟨a, r⟩ | ⟨e, r⟩ | ⟨e, r⟩ | _
  · exact ⟨rfl, List.suffix_refl s⟩
  · exact ⟨rfl, List.suffix_refl s⟩
  · exact ⟨rfl, List.suffix_refl s⟩
  · exact ⟨rfl, trivial⟩

theorem notP {p : L α} {q : P α} (h : LTr p q) : LTr (L.notP p) (Kdl.notP q) := by
  intro s
  obtain ⟨h1, h2⟩ := h s
  unfold L.notP Kdl.notP
  rw [← h1]
  rcases p s with ⟨a, r⟩ | ⟨e, r⟩ | ⟨e, r⟩ | _
  · exact ⟨rfl, List.suffix_refl s⟩
  · exact ⟨rfl, List.suffix_refl s⟩
  · exact ⟨rfl, List.suffix_refl s⟩
  · exact ⟨rfl, trivial⟩

theorem cutErr {p : L α} {q : P α} (h : LTr p q) : LTr (L.cutErr p) (Kdl.cutErr q) := by
  intro s
  obtain ⟨h1, h2⟩ := h s
  unfold L.cutErr Kdl.cutErr
  rw [← h1]
  rcases hp : p s with ⟨a, r⟩ | ⟨e, r⟩ | ⟨e, r⟩ | _ <;> rw [hp] at h2 <;> exact ⟨rfl, h2⟩

theorem ctx {c : PErr} {p : L α} {q : P α} (h : LTr p q) : LTr (L.ctx c p) q := by
  intro s
  obtain ⟨h1, h2⟩ := h s
  unfold L.ctx
  rw [← h1]
  rcases hp : p s with ⟨a, r⟩ | ⟨e, r⟩ | ⟨e, r⟩ | _ <;> rw [hp] at h2 <;> exact ⟨rfl, h2⟩

theorem takeP {p : L α} {q : P α} (h : LTr p q) : LTr (L.takeP p) (Kdl.takeP q) :=
  .bind .here fun _ => .bind h fun _ => .bind .here fun _ => .pure _

theorem void {p : L α} {q : P α} (h : LTr p q) : LTr (L.void p) (Kdl.void q) := .bind h fun _ => .pure _

theorem tryMap {p : L α} {q : P α} {f : α → Option β} {e : PErr} (h : LTr p q) :
    LTr (L.tryMap p f e) (Kdl.mapOpt q f) := by
  intro s
  obtain ⟨h1, h2⟩ := h s
  change _ = P.bind q _ s ∧ _
  unfold L.tryMap P.bind
  rw [← h1]
  rcases hp : p s with ⟨a, r⟩ | ⟨e, r⟩ | ⟨e, r⟩ | _ <;> rw [hp] at h2
  · simp only [LRes.erase]
    rcases f a with _ | b
    · exact ⟨rfl, List.suffix_refl s⟩
    · exact ⟨rfl, h2⟩
  all_goals exact ⟨rfl, h2⟩

theorem lit (t : Str) : LTr (L.lit t) (Kdl.lit t) := by
  intro s
  unfold L.lit Kdl.lit
  rcases h : stripPrefix? t s with _ | r
  · exact ⟨rfl, List.suffix_refl s⟩
  · exact ⟨rfl, t, (stripPrefix?_eq.mp h).symm⟩

theorem satisfy (f : Char → Bool) : LTr (L.satisfy f) (Kdl.satisfy f) := by
  rintro (_ | ⟨c, s⟩)
  · exact ⟨rfl, List.suffix_refl _⟩
  · simp only [L.satisfy, Kdl.satisfy]
    split
    · exact ⟨rfl, List.suffix_cons c s⟩
    · exact ⟨rfl, List.suffix_refl _⟩

theorem anyChar : LTr L.anyChar Kdl.anyChar := .satisfy _

theorem eof : LTr L.eof Kdl.eof := by
  rintro (_ | ⟨c, s⟩) <;> exact ⟨rfl, List.suffix_refl _⟩

theorem takeWhile1 (f : Char → Bool) : LTr (L.takeWhile1 f) (Kdl.takeWhile1 f) := by
  intro s
  unfold L.takeWhile1 Kdl.takeWhile1
  rcases s.takeWhile f with _ | ⟨c, t⟩
  · exact ⟨rfl, List.suffix_refl _⟩
  · exact ⟨rfl, List.dropWhile_suffix f⟩

theorem takeWhile1to6 (f : Char → Bool) : LTr (L.takeWhile1to6 f) (Kdl.takeWhile1to6 f) := by
  intro s
  unfold L.takeWhile1to6 Kdl.takeWhile1to6
  rcases (s.take 6).takeWhile f with _ | ⟨c, t⟩
  · exact ⟨rfl, List.suffix_refl _⟩
  · exact ⟨rfl, List.drop_suffix _ _⟩

theorem repFuel {p : L α} {q : P α} (h : LTr p q) (n : Nat) : LTr (L.repFuel p n) (Kdl.repFuel q n) := by
  induction n with
  | zero => intro s; exact ⟨rfl, trivial⟩
  | succ n ih =>
    intro s
    obtain ⟨h1, h2⟩ := h s
    unfold L.repFuel Kdl.repFuel
    rw [← h1]
    rcases hp : p s with ⟨a, r⟩ | ⟨e, r⟩ | ⟨e, r⟩ | _ <;> rw [hp] at h2
    · by_cases hl : r.length < s.length <;> simp only [LRes.erase, hl, if_true, if_false]
      · obtain ⟨h3, h4⟩ := ih r
        rw [← h3]
        replace h4 := h4.mono h2
        rcases hp : L.repFuel p n r with ⟨a, r⟩ | ⟨e, r⟩ | ⟨e, r⟩ | _ <;> rw [hp] at h4 <;> exact ⟨rfl, h4⟩
      · exact ⟨trivial, trivial⟩
    · exact ⟨rfl, List.suffix_refl s⟩
    all_goals exact ⟨rfl, h2⟩

theorem rep0 {p : L α} {q : P α} (h : LTr p q) : LTr (L.rep0 p) (Kdl.rep0 q) := fun s => repFuel h _ s

theorem rep1 {p : L α} {q : P α} (h : LTr p q) : LTr (L.rep1 p) (Kdl.rep1 q) :=
  .bind h fun _ => .bind (.rep0 h) fun _ => .pure _

theorem repTillFuel {p : L α} {q : P α} {e : L β} {f : P β} (h : LTr p q) (he : LTr e f) (n : Nat) :
    LTr (L.repTillFuel p e n) (Kdl.repTillFuel q f n) := by
  induction n with
  | zero => intro s; exact ⟨rfl, trivial⟩
  | succ n ih =>
    intro s
    obtain ⟨h1, h2⟩ := h s
    obtain ⟨e1, e2⟩ := he s
    unfold L.repTillFuel Kdl.repTillFuel
    rw [← h1, ← e1]
    rcases hp' : e s with ⟨a, r⟩ | ⟨e, r⟩ | ⟨e, r⟩ | _ <;> rw [hp'] at e2
    · exact ⟨rfl, e2⟩
    · rcases hp : p s with ⟨a, r⟩ | ⟨e, r⟩ | ⟨e, r⟩ | _ <;> rw [hp] at h2
      · by_cases hl : r.length < s.length <;> simp only [LRes.erase, hl, if_true, if_false]
        · obtain ⟨h3, h4⟩ := ih r
          rw [← h3]
          replace h4 := h4.mono h2
          rcases hp : L.repTillFuel p _ n r with ⟨a, r⟩ | ⟨e, r⟩ | ⟨e, r⟩ | _ <;> rw [hp] at h4 <;> exact ⟨rfl, h4⟩
        · exact ⟨trivial, trivial⟩
      all_goals exact ⟨rfl, h2⟩
    all_goals exact ⟨rfl, e2⟩

theorem repTill {p : L α} {q : P α} {e : L β} {f : P β} (h : LTr p q) (he : LTr e f) :
    LTr (L.repTill p e) (Kdl.repTill q f) := fun s => repTillFuel h he _ s

end LTr

/-- One step of `lsolve`. -/
syntax "lstep" : tactic
macro_rules | `(tactic| lstep) => `(tactic| intro _)
macro_rules | `(tactic| lstep) => `(tactic| split)
macro_rules | `(tactic| lstep) => `(tactic| with_reducible apply LTr.ctx)
macro_rules | `(tactic| lstep) => `(tactic| with_reducible apply LTr.bind)
macro_rules | `(tactic| lstep) => `(tactic| with_reducible apply LTr.alt)
macro_rules | `(tactic| lstep) => `(tactic| with_reducible apply LTr.opt)
macro_rules | `(tactic| lstep) => `(tactic| with_reducible apply LTr.peek)
macro_rules | `(tactic| lstep) => `(tactic| with_reducible apply LTr.notP)
macro_rules | `(tactic| lstep) => `(tactic| with_reducible apply LTr.cutErr)
macro_rules | `(tactic| lstep) => `(tactic| with_reducible apply LTr.takeP)
macro_rules | `(tactic| lstep) => `(tactic| with_reducible apply LTr.void)
macro_rules | `(tactic| lstep) => `(tactic| with_reducible apply LTr.tryMap)
macro_rules | `(tactic| lstep) => `(tactic| with_reducible apply LTr.rep0)
macro_rules | `(tactic| lstep) => `(tactic| with_reducible apply LTr.rep1)
macro_rules | `(tactic| lstep) => `(tactic| with_reducible apply LTr.repTill)
macro_rules | `(tactic| lstep) => `(tactic| with_reducible exact LTr.pure _)
macro_rules | `(tactic| lstep) => `(tactic| with_reducible exact LTr.here)
macro_rules | `(tactic| lstep) => `(tactic| with_reducible exact LTr.lit _)
macro_rules | `(tactic| lstep) => `(tactic| with_reducible exact LTr.satisfy _)
macro_rules | `(tactic| lstep) => `(tactic| with_reducible exact LTr.anyChar)
macro_rules | `(tactic| lstep) => `(tactic| with_reducible exact LTr.eof)
macro_rules | `(tactic| lstep) => `(tactic| with_reducible exact LTr.takeWhile1 _)
macro_rules | `(tactic| lstep) => `(tactic| with_reducible exact LTr.takeWhile1to6 _)
macro_rules | `(tactic| lstep) => `(tactic| with_reducible assumption)
/-- Follows the structure of a lexical parser. -/
macro "lsolve" : tactic => `(tactic| repeat' lstep)

protected theorem LTr.newline : LTr newlineL Kdl.newline := by
  unfold Kdl.newlineL Kdl.newline; lsolve
macro_rules | `(tactic| lstep) => `(tactic| with_reducible exact LTr.newline)

protected theorem LTr.unicodeSpace : LTr unicodeSpaceL Kdl.unicodeSpace := by
  unfold Kdl.unicodeSpaceL Kdl.unicodeSpace; lsolve
macro_rules | `(tactic| lstep) => `(tactic| with_reducible exact LTr.unicodeSpace)

protected theorem LTr.disallowedUnicode : LTr disallowedUnicodeL Kdl.disallowedUnicode := by
  unfold Kdl.disallowedUnicodeL Kdl.disallowedUnicode; lsolve
macro_rules | `(tactic| lstep) => `(tactic| with_reducible exact LTr.disallowedUnicode)

protected theorem LTr.bom : LTr bomL Kdl.bom := by
  unfold Kdl.bomL Kdl.bom; lsolve
macro_rules | `(tactic| lstep) => `(tactic| with_reducible exact LTr.bom)

protected theorem LTr.equalsSign : LTr equalsSignL Kdl.equalsSign := by
  unfold Kdl.equalsSignL Kdl.equalsSign; lsolve
macro_rules | `(tactic| lstep) => `(tactic| with_reducible exact LTr.equalsSign)

protected theorem LTr.singleLineComment : LTr singleLineCommentL Kdl.singleLineComment := by
  unfold Kdl.singleLineCommentL Kdl.singleLineComment; lsolve
macro_rules | `(tactic| lstep) => `(tactic| with_reducible exact LTr.singleLineComment)

theorem LTr.commentedBlock (n : Nat) : LTr (commentedBlockLN n) (commentedBlockN n) := by
  induction n with
  | zero => intro s; exact ⟨rfl, trivial⟩
  | succ n ih => unfold commentedBlockLN commentedBlockN; lsolve
macro_rules | `(tactic| lstep) => `(tactic| with_reducible exact LTr.commentedBlock _)

protected theorem LTr.multiLineComment : LTr multiLineCommentL Kdl.multiLineComment := by
  intro s
  have : LTr (do L.lit ['/', '*']; L.ctx commentCx (L.cutErr (commentedBlockLN (s.length + 1))))
    (do Kdl.lit ['/', '*']; Kdl.cutErr (commentedBlockN (s.length + 1))) := by lsolve
  exact this s
macro_rules | `(tactic| lstep) => `(tactic| with_reducible exact LTr.multiLineComment)

protected theorem LTr.ws : LTr wsL Kdl.ws := by
  unfold Kdl.wsL Kdl.ws; lsolve
macro_rules | `(tactic| lstep) => `(tactic| with_reducible exact LTr.ws)

protected theorem LTr.wss : LTr wssL Kdl.wss := by
  unfold Kdl.wssL Kdl.wss; lsolve
macro_rules | `(tactic| lstep) => `(tactic| with_reducible exact LTr.wss)

protected theorem LTr.wsp : LTr wspL Kdl.wsp := by
  unfold Kdl.wspL Kdl.wsp; lsolve
macro_rules | `(tactic| lstep) => `(tactic| with_reducible exact LTr.wsp)

protected theorem LTr.escline : LTr esclineL Kdl.escline := by
  unfold Kdl.esclineL Kdl.escline; lsolve
macro_rules | `(tactic| lstep) => `(tactic| with_reducible exact LTr.escline)

protected theorem LTr.nodeSpace : LTr nodeSpaceL Kdl.nodeSpace := by
  unfold Kdl.nodeSpaceL Kdl.nodeSpace; lsolve
macro_rules | `(tactic| lstep) => `(tactic| with_reducible exact LTr.nodeSpace)

protected theorem LTr.nodeSpace0 : LTr nodeSpace0L Kdl.nodeSpace0 := by
  unfold Kdl.nodeSpace0L Kdl.nodeSpace0; lsolve
macro_rules | `(tactic| lstep) => `(tactic| with_reducible exact LTr.nodeSpace0)

protected theorem LTr.nodeSpace1 : LTr nodeSpace1L Kdl.nodeSpace1 := by
  unfold Kdl.nodeSpace1L Kdl.nodeSpace1; lsolve
macro_rules | `(tactic| lstep) => `(tactic| with_reducible exact LTr.nodeSpace1)

protected theorem LTr.lineSpace : LTr lineSpaceL Kdl.lineSpace := by
  unfold Kdl.lineSpaceL Kdl.lineSpace; lsolve
macro_rules | `(tactic| lstep) => `(tactic| with_reducible exact LTr.lineSpace)

protected theorem LTr.nodeTerminator : LTr nodeTerminatorL Kdl.nodeTerminator := by
  unfold Kdl.nodeTerminatorL Kdl.nodeTerminator; lsolve
macro_rules | `(tactic| lstep) => `(tactic| with_reducible exact LTr.nodeTerminator)

protected theorem LTr.slashdash : LTr slashdashL Kdl.slashdash := by
  unfold Kdl.slashdashL Kdl.slashdash; lsolve
macro_rules | `(tactic| lstep) => `(tactic| with_reducible exact LTr.slashdash)

protected theorem LTr.valueTerminator : LTr valueTerminatorL Kdl.valueTerminator := by
  unfold Kdl.valueTerminatorL Kdl.valueTerminator; lsolve
macro_rules | `(tactic| lstep) => `(tactic| with_reducible exact LTr.valueTerminator)

protected theorem LTr.valueTerminatorCheck : LTr valueTerminatorCheckL Kdl.valueTerminatorCheck := by
  unfold Kdl.valueTerminatorCheckL Kdl.valueTerminatorCheck; lsolve
macro_rules | `(tactic| lstep) => `(tactic| with_reducible exact LTr.valueTerminatorCheck)

protected theorem LTr.identifierChar : LTr identifierCharL Kdl.identifierChar := by
  unfold Kdl.identifierCharL Kdl.identifierChar; lsolve
macro_rules | `(tactic| lstep) => `(tactic| with_reducible exact LTr.identifierChar)

protected theorem LTr.digit1 : LTr digit1L Kdl.digit1 := by
  unfold Kdl.digit1L Kdl.digit1; lsolve
macro_rules | `(tactic| lstep) => `(tactic| with_reducible exact LTr.digit1)

protected theorem LTr.unambiguousIdent : LTr unambiguousIdentL Kdl.unambiguousIdent := by
  unfold Kdl.unambiguousIdentL Kdl.unambiguousIdent; lsolve
macro_rules | `(tactic| lstep) => `(tactic| with_reducible exact LTr.unambiguousIdent)

protected theorem LTr.signedIdent : LTr signedIdentL Kdl.signedIdent := by
  unfold Kdl.signedIdentL Kdl.signedIdent; lsolve
macro_rules | `(tactic| lstep) => `(tactic| with_reducible exact LTr.signedIdent)

protected theorem LTr.signum : LTr signumL Kdl.signum := by
  unfold Kdl.signumL Kdl.signum; lsolve
macro_rules | `(tactic| lstep) => `(tactic| with_reducible exact LTr.signum)

protected theorem LTr.dottedIdent : LTr dottedIdentL Kdl.dottedIdent := by
  unfold Kdl.dottedIdentL Kdl.dottedIdent; lsolve
macro_rules | `(tactic| lstep) => `(tactic| with_reducible exact LTr.dottedIdent)

protected theorem LTr.identifierString : LTr identifierStringL Kdl.identifierString := by
  unfold Kdl.identifierStringL Kdl.identifierString; lsolve
macro_rules | `(tactic| lstep) => `(tactic| with_reducible exact LTr.identifierString)

protected theorem LTr.wsEscape : LTr wsEscapeL Kdl.wsEscape := by
  unfold Kdl.wsEscapeL Kdl.wsEscape; lsolve
macro_rules | `(tactic| lstep) => `(tactic| with_reducible exact LTr.wsEscape)

protected theorem LTr.escapedChar : LTr escapedCharL Kdl.escapedChar := by
  unfold Kdl.escapedCharL Kdl.escapedChar; lsolve
macro_rules | `(tactic| lstep) => `(tactic| with_reducible exact LTr.escapedChar)

protected theorem LTr.stringChar : LTr stringCharL Kdl.stringChar := by
  unfold Kdl.stringCharL Kdl.stringChar; lsolve
macro_rules | `(tactic| lstep) => `(tactic| with_reducible exact LTr.stringChar)

protected theorem LTr.emptyLine : LTr emptyLineL Kdl.emptyLine := by
  unfold Kdl.emptyLineL Kdl.emptyLine; lsolve
macro_rules | `(tactic| lstep) => `(tactic| with_reducible exact LTr.emptyLine)

protected theorem LTr.mlChar : LTr mlCharL Kdl.mlChar := by
  unfold Kdl.mlCharL Kdl.mlChar; lsolve
macro_rules | `(tactic| lstep) => `(tactic| with_reducible exact LTr.mlChar)

protected theorem LTr.mlIndent : LTr mlIndentL Kdl.mlIndent := by
  unfold Kdl.mlIndentL Kdl.mlIndent; lsolve
macro_rules | `(tactic| lstep) => `(tactic| with_reducible exact LTr.mlIndent)

protected theorem LTr.mlPrefix : LTr mlPrefixL Kdl.mlPrefix := by
  unfold Kdl.mlPrefixL Kdl.mlPrefix; lsolve
macro_rules | `(tactic| lstep) => `(tactic| with_reducible exact LTr.mlPrefix)

protected theorem LTr.mlLine (pre : Str) : LTr (mlLineL pre) (Kdl.mlLine pre) := by
  unfold Kdl.mlLineL Kdl.mlLine; lsolve
macro_rules | `(tactic| lstep) => `(tactic| with_reducible exact LTr.mlLine _)

protected theorem LTr.mlBody (pre : Str) : LTr (mlBodyL pre) (Kdl.mlBody pre) := by
  unfold Kdl.mlBodyL Kdl.mlBody; lsolve
macro_rules | `(tactic| lstep) => `(tactic| with_reducible exact LTr.mlBody _)

protected theorem LTr.slBody : LTr slBodyL Kdl.slBody := by
  unfold Kdl.slBodyL Kdl.slBody; lsolve
macro_rules | `(tactic| lstep) => `(tactic| with_reducible exact LTr.slBody)

protected theorem LTr.quotedString : LTr quotedStringL Kdl.quotedString := by
  unfold Kdl.quotedStringL Kdl.quotedString; lsolve
macro_rules | `(tactic| lstep) => `(tactic| with_reducible exact LTr.quotedString)

protected theorem LTr.rawMlPrefix (hashes : Str) : LTr (rawMlPrefixL hashes) (Kdl.rawMlPrefix hashes) := by
  unfold Kdl.rawMlPrefixL Kdl.rawMlPrefix; lsolve
macro_rules | `(tactic| lstep) => `(tactic| with_reducible exact LTr.rawMlPrefix _)

protected theorem LTr.rawMlLine (hashes pre : Str) : LTr (rawMlLineL hashes pre) (Kdl.rawMlLine hashes pre) := by
  unfold Kdl.rawMlLineL Kdl.rawMlLine; lsolve
macro_rules | `(tactic| lstep) => `(tactic| with_reducible exact LTr.rawMlLine _ _)

protected theorem LTr.rawMlBody (hashes pre : Str) : LTr (rawMlBodyL hashes pre) (Kdl.rawMlBody hashes pre) := by
  unfold Kdl.rawMlBodyL Kdl.rawMlBody; lsolve
macro_rules | `(tactic| lstep) => `(tactic| with_reducible exact LTr.rawMlBody _ _)

protected theorem LTr.rawSlBody (hashes : Str) : LTr (rawSlBodyL hashes) (Kdl.rawSlBody hashes) := by
  unfold Kdl.rawSlBodyL Kdl.rawSlBody; lsolve
macro_rules | `(tactic| lstep) => `(tactic| with_reducible exact LTr.rawSlBody _)

/-- A raw string before its value is looked at. -/
def rawOpen : P Str := do
  let hashes ← Kdl.takeP (Kdl.rep1 (Kdl.lit ['#']))
  let ml ← (do Kdl.lit tripleQuote; Kdl.newline; return true) <+> (do Kdl.lit ['"']; return false)
  if ml then do
    let pre ← Kdl.rawMlPrefix hashes
    let body ← Kdl.rawMlBody hashes pre
    Kdl.cutErr (do Kdl.lit tripleQuote; Kdl.lit hashes)
    return body
  else do
    let body ← Kdl.rawSlBody hashes
    Kdl.cutErr (do Kdl.lit ['"']; Kdl.lit hashes)
    return body

theorem LTr.rawOpen : LTr rawStringL rawOpen := by
  unfold Kdl.rawStringL Kdl.rawOpen; lsolve

protected theorem LTr.digitGroup (f : Char → Bool) : LTr (digitGroupL f) (Kdl.digitGroup f) := by
  unfold Kdl.digitGroupL Kdl.digitGroup; lsolve
macro_rules | `(tactic| lstep) => `(tactic| with_reducible exact LTr.digitGroup _)

protected theorem LTr.udecimal : LTr udecimalL Kdl.udecimal := by
  unfold Kdl.udecimalL Kdl.udecimal; lsolve
macro_rules | `(tactic| lstep) => `(tactic| with_reducible exact LTr.udecimal)

protected theorem LTr.uhex : LTr uhexL Kdl.uhex := by
  unfold Kdl.uhexL Kdl.uhex; lsolve
macro_rules | `(tactic| lstep) => `(tactic| with_reducible exact LTr.uhex)

protected theorem LTr.uoctal : LTr uoctalL Kdl.uoctal := by
  unfold Kdl.uoctalL Kdl.uoctal; lsolve
macro_rules | `(tactic| lstep) => `(tactic| with_reducible exact LTr.uoctal)

protected theorem LTr.ubinary : LTr ubinaryL Kdl.ubinary := by
  unfold Kdl.ubinaryL Kdl.ubinary; lsolve
macro_rules | `(tactic| lstep) => `(tactic| with_reducible exact LTr.ubinary)

theorem LTr.negated (x : I128) : LTr (negatedL x) (negatedP x) := by
  intro s
  unfold negatedL negatedP
  rcases I128.ofInt? (-x.val) with _ | y
  · exact ⟨rfl, trivial⟩
  · exact ⟨rfl, List.suffix_refl s⟩
macro_rules | `(tactic| lstep) => `(tactic| with_reducible exact LTr.negated _)

theorem LTr.signed {p : L I128} {q : P I128} (h : LTr p q) : LTr (signedL p) (signedP q) := by
  unfold signedL signedP; lsolve
macro_rules | `(tactic| lstep) => `(tactic| with_reducible apply LTr.signed)

protected theorem LTr.decimal : LTr decimalL Kdl.decimal := by
  unfold Kdl.decimalL Kdl.decimal; lsolve
macro_rules | `(tactic| lstep) => `(tactic| with_reducible exact LTr.decimal)

protected theorem LTr.hex : LTr hexL Kdl.hex := by
  unfold Kdl.hexL Kdl.hex; lsolve
macro_rules | `(tactic| lstep) => `(tactic| with_reducible exact LTr.hex)

protected theorem LTr.octal : LTr octalL Kdl.octal := by
  unfold Kdl.octalL Kdl.octal; lsolve
macro_rules | `(tactic| lstep) => `(tactic| with_reducible exact LTr.octal)

protected theorem LTr.binary : LTr binaryL Kdl.binary := by
  unfold Kdl.binaryL Kdl.binary; lsolve
macro_rules | `(tactic| lstep) => `(tactic| with_reducible exact LTr.binary)

theorem LTr.fraction : LTr fractionL (Kdl.cutErr Kdl.udecimal) := by
  unfold fractionL; lsolve
macro_rules | `(tactic| lstep) => `(tactic| with_reducible exact LTr.fraction)

protected theorem LTr.floatExp : LTr floatExpL Kdl.floatExp := by
  unfold Kdl.floatExpL Kdl.floatExp; lsolve
macro_rules | `(tactic| lstep) => `(tactic| with_reducible exact LTr.floatExp)

protected theorem LTr.floatFrac : LTr floatFracL Kdl.floatFrac := by
  unfold Kdl.floatFracL Kdl.floatFrac; lsolve
macro_rules | `(tactic| lstep) => `(tactic| with_reducible exact LTr.floatFrac)

protected theorem LTr.integerValue : LTr integerValueL Kdl.integerValue := by
  unfold Kdl.integerValueL Kdl.integerValue; lsolve
macro_rules | `(tactic| lstep) => `(tactic| with_reducible exact LTr.integerValue)

protected theorem LTr.keyword : LTr keywordL Kdl.keyword := by
  unfold Kdl.keywordL Kdl.keyword; lsolve
macro_rules | `(tactic| lstep) => `(tactic| with_reducible exact LTr.keyword)

protected theorem LTr.floatValue [FloatIO] : LTr floatValueL Kdl.floatValue := by
  unfold Kdl.floatValueL Kdl.floatValue; lsolve
macro_rules | `(tactic| lstep) => `(tactic| with_reducible exact LTr.floatValue)

protected theorem LTr.number [FloatIO] : LTr numberL Kdl.number := by
  unfold Kdl.numberL Kdl.number; lsolve
macro_rules | `(tactic| lstep) => `(tactic| with_reducible exact LTr.number)

end Kdl
