import Verif.Model.Types
/-
The fragment of the `winnow` parser-combinator library (version 1.0) that
`src/v2_parser.rs` uses, as a deep-enough functional model: a parser takes the
remaining input and returns a result together with the input left over.

Simplification used throughout: error payloads (messages, labels, spans of
diagnostics) are dropped, and so is the position at which a failing parser stops.
`resume_after_cut` (`src/v2_parser.rs:205-253`) is read strictly: it is the
wrapped parser itself, a `Cut` error ends the parse. This is what decides whether
`parse` returns `Ok`; see `Verif/Model/Recover.lean` for the justification. The
error payloads are in `Verif/Model/Diag.lean`.
-/

namespace Kdl

/-- Outcome of running a parser. `back` and `cut` are `ErrMode::Backtrack` and
`ErrMode::Cut`. `crash` stands for a panic: winnow's "parser must always consume"
assertion, arithmetic overflow, or the recursion budget of the model. -/
inductive Res (α : Type) where
  | ok (a : α) (rest : Str)
  | back
  | cut
  | crash
  deriving DecidableEq

/-- A parser. -/
def P (α : Type) : Type := Str → Res α

namespace P

/-- Succeed without consuming. -/
def pure {α : Type} (a : α) : P α := fun s => .ok a s

/-- Sequence two parsers (winnow's tuples and the `?` operator). -/
def bind {α β : Type} (p : P α) (f : α → P β) : P β := fun s =>
  match p s with
  | .ok a r => f a r
  | .back => .back
  | .cut => .cut
  | .crash => .crash

instance : Monad P where
  pure := P.pure
  bind := P.bind

/-- `alt((p, q))`. -/
def alt {α : Type} (p q : P α) : P α := fun s =>
  match p s with
  | .back => q s
  | r => r

end P

@[inherit_doc] infixr:20 " <+> " => P.alt

/-- The input that is left, `input.checkpoint()`. -/
def here : P Str := fun s => .ok s s

/-- A backtracking failure. -/
def failP {α : Type} : P α := fun _ => .back

/-- A cut failure. -/
def cutP {α : Type} : P α := fun _ => .cut

/-- `opt(p)`. -/
def opt {α : Type} (p : P α) : P (Option α) := fun s =>
  match p s with
  | .ok a r => .ok (some a) r
  | .back => .ok none s
  | .cut => .cut
  | .crash => .crash

/-- `peek(p)`. -/
def peek {α : Type} (p : P α) : P α := fun s =>
  match p s with
  | .ok a _ => .ok a s
  | .back => .back
  | .cut => .cut
  | .crash => .crash

/-- `not(p)`. -/
def notP {α : Type} (p : P α) : P Unit := fun s =>
  match p s with
  | .ok _ _ => .back
  | .back => .ok () s
  | .cut => .cut
  | .crash => .crash

/-- `cut_err(p)`. -/
def cutErr {α : Type} (p : P α) : P α := fun s =>
  match p s with
  | .back => .cut
  | r => r

/-- The text between two positions of the input (`r` is a suffix of `s`). -/
def taken (s r : Str) : Str := s.take (s.length - r.length)

/-- `p.take()`. -/
def takeP {α : Type} (p : P α) : P Str := do
  let s ← here
  let _ ← p
  let r ← here
  return taken s r

/-- `p.verify_map(f)` / `p.try_map(f)`: failure of `f` is a backtracking error. -/
def mapOpt {α β : Type} (p : P α) (f : α → Option β) : P β := do
  let a ← p
  match f a with
  | some b => return b
  | none => failP

/-- Literal text. -/
def lit (t : Str) : P Unit := fun s =>
  match stripPrefix? t s with
  | some r => .ok () r
  | none => .back

/-- `one_of`/`none_of`/`any` with a predicate. -/
def satisfy (f : Char → Bool) : P Char := fun s =>
  match s with
  | c :: r => if f c then .ok c r else .back
  | [] => .back

/-- `any`. -/
def anyChar : P Char := satisfy fun _ => true

/-- `eof`. -/
def eof : P Unit := fun s =>
  match s with
  | [] => .ok () []
  | _ :: _ => .back

/-- `take_while(1.., f)`. -/
def takeWhile1 (f : Char → Bool) : P Str := fun s =>
  match s.takeWhile f with
  | [] => .back
  | t => .ok t (s.dropWhile f)

/-- `take_while(1..=6, f)`. -/
def takeWhile1to6 (f : Char → Bool) : P Str := fun s =>
  match (s.take 6).takeWhile f with
  | [] => .back
  | t => .ok t (s.drop t.length)

/-- Loop of `repeat(0.., p)`, with a recursion budget. -/
def repFuel {α : Type} (p : P α) : Nat → P (List α)
  | 0, _ => .crash
  | n + 1, s =>
    match p s with
    | .ok a r =>
      if r.length < s.length then
        match repFuel p n r with
        | .ok as r' => .ok (a :: as) r'
        | .back => .back
        | .cut => .cut
        | .crash => .crash
      else .crash
    | .back => .ok [] s
    | .cut => .cut
    | .crash => .crash

/-- `repeat(0.., p)`; every round consumes input, so the budget suffices. -/
def rep0 {α : Type} (p : P α) : P (List α) := fun s => repFuel p (s.length + 1) s

/-- `repeat(1.., p)`. -/
def rep1 {α : Type} (p : P α) : P (List α) := do
  let a ← p
  let as ← rep0 p
  return a :: as

/-- Loop of `repeat_till(0.., p, e)`, with a recursion budget. -/
def repTillFuel {α β : Type} (p : P α) (e : P β) : Nat → P (List α × β)
  | 0, _ => .crash
  | n + 1, s =>
    match e s with
    | .ok b r => .ok ([], b) r
    | .back =>
      match p s with
      | .ok a r =>
        if r.length < s.length then
          match repTillFuel p e n r with
          | .ok (as, b) r' => .ok (a :: as, b) r'
          | .back => .back
          | .cut => .cut
          | .crash => .crash
        else .crash
      | .back => .back
      | .cut => .cut
      | .crash => .crash
    | .cut => .cut
    | .crash => .crash

/-- `repeat_till(0.., p, e)`. -/
def repTill {α β : Type} (p : P α) (e : P β) : P (List α × β) := fun s =>
  repTillFuel p e (s.length + 1) s

/-- Loop of `separated`, after the first element, with a recursion budget. -/
def sepFuel {α β : Type} (p : P α) (sep : P β) : Nat → P (List α)
  | 0, _ => .crash
  | n + 1, s =>
    match sep s with
    | .ok _ r =>
      if r.length < s.length then
        match p r with
        | .ok a r' =>
          match sepFuel p sep n r' with
          | .ok as r'' => .ok (a :: as) r''
          | .back => .back
          | .cut => .cut
          | .crash => .crash
        | .back => .ok [] s
        | .cut => .cut
        | .crash => .crash
      else .crash
    | .back => .ok [] s
    | .cut => .cut
    | .crash => .crash

/-- `separated` after the first element. -/
def sepMore {α β : Type} (p : P α) (sep : P β) : P (List α) := fun s =>
  sepFuel p sep (s.length + 1) s

/-- `separated(1.., p, sep)`. -/
def sep1 {α β : Type} (p : P α) (sep : P β) : P (List α) := do
  let a ← p
  let as ← sepMore p sep
  return a :: as

/-- `separated(0.., p, sep)`. -/
def sep0 {α β : Type} (p : P α) (sep : P β) : P (List α) := fun s =>
  match p s with
  | .ok a r =>
    match sepMore p sep r with
    | .ok as r' => .ok (a :: as) r'
    | .back => .back
    | .cut => .cut
    | .crash => .crash
  | .back => .ok [] s
  | .cut => .cut
  | .crash => .crash

/-- Forget the output, `p.void()`. -/
def void {α : Type} (p : P α) : P Unit := do
  let _ ← p
  return ()

/-- `span_from_checkpoint` (`src/v2_parser.rs:196-202`) and winnow's
`with_span`: the byte range between two positions of an input of `total`
bytes. -/
def spanOf (total : Nat) (s r : Str) : Span :=
  ⟨total - utf8Len s, utf8Len s - utf8Len r⟩

end Kdl
