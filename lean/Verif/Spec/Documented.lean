import Verif.Spec.Grammar
/-
The grammar that the comments of the parser document, rule by rule, with the data that each
rule contributes. Strings, numbers, keywords, white space and comments are those of the other
files of this folder.
-/

namespace Kdl.Spec

/-- `node-terminator := single-line-comment | newline | ';' | eof`, in front of `x`
(`src/v2_parser.rs:802`). -/
def DTerm (m x : Str) : Prop := LineComment m x ∨ NewlineSeq m x ∨ m = [';'] ∨ (m = [] ∧ x = [])

/-- `slashdash?`, in front of `nx`, where `slashdash := '/' '-' (node-space | line-space)*`
(`src/v2_parser.rs:1718`). The flag says whether there is one. -/
inductive DSlash (nx : Str) : Bool → Str → Prop
  | no : DSlash nx false []
  | yes {b : Str} (hb : LSpace nx b) : DSlash nx true ('/' :: '-' :: b)

/-- `type? node-space*`, in front of `nx`, where
`type := '(' optional-node-space string optional-node-space ')'` (`src/v2_parser.rs:321,863`). -/
inductive DType (nx : Str) : Option Str → Str → Prop
  | none {w : Str} (hw : NSpace nx w) : DType nx none w
  | some {i it b a w : Str} (hi : StrText it i) (hb : NSpace it b) (ha : NSpace [')'] a) (hw : NSpace nx w) :
      DType nx (some i) ('(' :: (b ++ (it ++ (a ++ ')' :: w))))

/-- What an element contributes that may be slashdashed. -/
def shown {α : Type} (slashed : Bool) (d : α) : List α := if slashed then [] else [d]

section
variable [FloatIO]

/-- `(node-space+ slashdash? node-prop-or-arg)*` (`src/v2_parser.rs:322`). `EntryText` is
`node-prop-or-arg := prop | value`, with `prop := string node-space* '=' node-space* value` and
`value := type? node-space* (string | number | keyword)` (`src/v2_parser.rs:541,812`). -/
inductive DEntries : List (SEntry Value) → Str → Prop
  | nil : DEntries [] []
  | cons {s : Bool} {w sl E T : Str} {d : SEntry Value} {ds : List (SEntry Value)} (hw : NSpace (sl ++ E) w) (hne : w ≠ [])
      (hs : DSlash E s sl) (hE : EntryText d E) (hT : DEntries ds T) : DEntries (shown s d ++ ds) (w ++ (sl ++ (E ++ T)))

/-- The categories of the documented grammar. -/
inductive DCat where
  /-- `node-children := '{' nodes final-node? '}'` -/
  | children (cs : List (SNode Value))
  /-- `(node-space+ slashdash node-children)*` -/
  | skipped
  /-- `(node-space+ node-children)?` -/
  | block (cs : Option (List (SNode Value)))
  /-- `base-node`; the flag says whether it is slashdashed -/
  | base (s : Bool) (d : SNode Value)
  /-- `final-node?` -/
  | final (ds : List (SNode Value))
  /-- `nodes := (line-space* node)* line-space*` -/
  | nodes (ds : List (SNode Value))

/-- `Doc semi c r t`: by the documented grammar (`src/v2_parser.rs:281,321-328,759`), the text `t`,
in front of `r`, belongs to the category `c`. If `semi` is not set, slashdashed nodes that end
with a semicolon are left out. -/
inductive Doc (semi : Bool) : DCat → Str → Str → Prop
  | children {r N F : Str} {cs es : List (SNode Value)} (hN : Doc semi (.nodes cs) (F ++ '}' :: r) N)
      (hF : Doc semi (.final es) ('}' :: r) F) : Doc semi (.children (cs ++ es)) r ('{' :: (N ++ (F ++ ['}'])))
  | skipNil {r : Str} : Doc semi .skipped r []
  | skip {r w b C T : Str} {cs : List (SNode Value)} (hw : NSpace ('/' :: '-' :: (b ++ C)) w) (hne : w ≠ []) (hb : LSpace C b)
      (hC : Doc semi (.children cs) (T ++ r) C) (hT : Doc semi .skipped r T) :
      Doc semi .skipped r (w ++ '/' :: '-' :: (b ++ (C ++ T)))
  | noBlock {r : Str} : Doc semi (.block none) r []
  | block {r w C : Str} {cs : List (SNode Value)} (hw : NSpace C w) (hne : w ≠ []) (hC : Doc semi (.children cs) r C) :
      Doc semi (.block (some cs)) r (w ++ C)
  | base {s : Bool} {r sl tt nt T S C S' w nm : Str} {ty : Option Str} {ds : List (SEntry Value)} {cs : Option (List (SNode Value))}
      (hs : DSlash (tt ++ nt) s sl) (ht : DType nt ty tt) (hn : StrText nt nm) (hT : DEntries ds T)
      (hS : Doc semi .skipped (C ++ (S' ++ (w ++ r))) S) (hC : Doc semi (.block cs) (S' ++ (w ++ r)) C)
      (hS' : Doc semi .skipped (w ++ r) S') (hw : NSpace r w) :
      Doc semi (.base s (.mk ty nm ds cs)) r (sl ++ (tt ++ (nt ++ (T ++ (S ++ (C ++ (S' ++ w)))))))
  | noFinal {r : Str} : Doc semi (.final []) r []
  | final {s : Bool} {r B w m : Str} {d : SNode Value} (hB : Doc semi (.base s d) (w ++ (m ++ r)) B) (hw : NSpace (m ++ r) w)
      (hm : m = [] ∨ DTerm m r) (hs : s = true → semi = false → m ≠ [';']) : Doc semi (.final (shown s d)) r (B ++ (w ++ m))
  | noNode {r l : Str} (hl : LSpace r l) : Doc semi (.nodes []) r l
  | node {s : Bool} {r l B w m T : Str} {d : SNode Value} {ds : List (SNode Value)} (hl : LSpace (B ++ (w ++ (m ++ (T ++ r)))) l)
      (hB : Doc semi (.base s d) (w ++ (m ++ (T ++ r))) B) (hw : NSpace (m ++ (T ++ r)) w) (hm : DTerm m (T ++ r))
      (hs : s = true → semi = false → m ≠ [';']) (hT : Doc semi (.nodes ds) r T) :
      Doc semi (.nodes (shown s d ++ ds)) r (l ++ (B ++ (w ++ (m ++ T))))

/-- `document := bom? nodes` (`src/v2_parser.rs:260`): by the documented grammar the text `s` is a
document with data `ds`. -/
def Documented (semi : Bool) (ds : List (SNode Value)) (s : Str) : Prop :=
  ∃ t, (s = t ∨ s = Char.ofNat 0xFEFF :: t) ∧ Doc semi (.nodes ds) [] t

end

/-- `Spaced t t'`: the text `t'` is `t` with spaces and line feeds put into it. -/
inductive Spaced : Str → Str → Prop
  | nil : Spaced [] []
  | keep {c : Char} {t t' : Str} (h : Spaced t t') : Spaced (c :: t) (c :: t')
  | put {c : Char} {t t' : Str} (hc : c = ' ' ∨ c = '\n') (h : Spaced t t') : Spaced t (c :: t')

/-- `Shifted n t t'`: the text `t'` is `t` with spaces and line feeds put into it, and with some slashdashes moved: of two
slashdashes with at most white space, comments and newlines between them, the second is replaced by a space and put
in again further behind. There are `n` slashdashes put in that were taken out in front of `t`. -/
inductive Shifted : Nat → Str → Str → Prop
  | nil : Shifted 0 [] []
  | keep {n : Nat} {c : Char} {t t' : Str} (h : Shifted n t t') : Shifted n (c :: t) (c :: t')
  | put {n : Nat} {c : Char} {t t' : Str} (hc : c = ' ' ∨ c = '\n') (h : Shifted n t t') : Shifted n t (c :: t')
  | take {n : Nat} {w t t' : Str} (hw : LSpace ('/' :: '-' :: t) w) (h : Shifted (n + 1) ('/' :: '-' :: t) ('/' :: '-' :: t')) :
      Shifted n ('/' :: '-' :: (w ++ '/' :: '-' :: t)) ('/' :: '-' :: (w ++ ' ' :: t'))
  | back {n : Nat} {t t' : Str} (h : Shifted n t t') : Shifted (n + 1) t ('/' :: '-' :: t')

/-- Somewhere in the text a slashdash is followed by another one, with at most white space,
comments and newlines between them. -/
def DoubleSlash (t : Str) : Prop :=
  ∃ a w b, t = a ++ '/' :: '-' :: (w ++ '/' :: '-' :: b) ∧ LSpace ('/' :: '-' :: b) w

end Kdl.Spec
