import Verif.Spec.Strings
/-
White space, comments and line continuations.
-/

namespace Kdl.Spec

/-- What may stand between `/*` and the matching `*/`. -/
inductive CBody : Str → Prop
  | nil : CBody []
  | char {c : Char} {t : Str} (h1 : c ≠ '*') (h2 : c ≠ '/') (h : CBody t) : CBody (c :: t)
  | star {t : Str} (h1 : ∀ q, t ≠ '/' :: q) (h : CBody t) : CBody ('*' :: t)
  | slash {t : Str} (h1 : t ≠ []) (h2 : ∀ q, t ≠ '*' :: q) (h : CBody t) : CBody ('/' :: t)
  | nest {a t : Str} (ha : CBody a) (h : CBody t) : CBody ('/' :: '*' :: (a ++ '*' :: '/' :: t))

/-- What follows a block comment: `closes n s` reads `s`, which starts inside `n + 1`
open comments, counting every `/*` and `*/`, up to the `*/` that closes the outermost
one. It is `none` if there is no such `*/`. -/
def closes : Nat → Str → Option Str
  | n, '*' :: '/' :: q => match n with
    | 0 => some q
    | n + 1 => closes n q
  | n, '/' :: '*' :: q => closes (n + 1) q
  | n, _ :: q => closes n q
  | _, [] => none

/-- White space characters and block comments. -/
inductive WSeq : Str → Prop
  | nil : WSeq []
  | space {c : Char} {t : Str} (h1 : Space c) (h : WSeq t) : WSeq (c :: t)
  | comment {a t : Str} (ha : CBody a) (h : WSeq t) : WSeq ('/' :: '*' :: (a ++ '*' :: '/' :: t))

/-- A single-line comment in front of `x`, with the newline sequence that ends it,
if any. -/
def LineComment (m x : Str) : Prop :=
  ∃ b nl, m = '/' :: '/' :: (b ++ nl) ∧ (∀ c ∈ b, ¬ Newline c) ∧ (NewlineSeq nl x ∨ (nl = [] ∧ x = []))

/-- What may stand in front of `x` after the backslash of a line continuation. -/
def LineEnd (m x : Str) : Prop := NewlineSeq m x ∨ LineComment m x ∨ (m = [] ∧ x = [])

/-- What may stand between the parts of a node, in front of `r`: white space, block
comments and line continuations. -/
inductive NSpace (r : Str) : Str → Prop
  | nil : NSpace r []
  | space {c : Char} {t : Str} (h1 : Space c) (h : NSpace r t) : NSpace r (c :: t)
  | comment {a t : Str} (ha : CBody a) (h : NSpace r t) : NSpace r ('/' :: '*' :: (a ++ '*' :: '/' :: t))
  | cont {b m t : Str} (hb : WSeq b) (hm : LineEnd m (t ++ r)) (h : NSpace r t) :
      NSpace r ('\\' :: (b ++ (m ++ t)))

/-- What may stand between nodes, in front of `r`: in addition newlines and
single-line comments. -/
inductive LSpace (r : Str) : Str → Prop
  | nil : LSpace r []
  | space {c : Char} {t : Str} (h1 : Space c) (h : LSpace r t) : LSpace r (c :: t)
  | comment {a t : Str} (ha : CBody a) (h : LSpace r t) : LSpace r ('/' :: '*' :: (a ++ '*' :: '/' :: t))
  | cont {b m t : Str} (hb : WSeq b) (hm : LineEnd m (t ++ r)) (h : LSpace r t) :
      LSpace r ('\\' :: (b ++ (m ++ t)))
  | newline {m t : Str} (hm : NewlineSeq m (t ++ r)) (h : LSpace r t) : LSpace r (m ++ t)
  | line {m t : Str} (hm : LineComment m (t ++ r)) (h : LSpace r t) : LSpace r (m ++ t)

end Kdl.Spec
