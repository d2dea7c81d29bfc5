import Verif.Spec.Grammar
/-
Texts that differ in their line breaks only.
-/

namespace Kdl.Spec

/-- `Rebroken s s'`: the text `s'` is `s` with each of its line breaks (CR, LF, CRLF, VT, FF, NEL, LS or PS)
exchanged for any line break. -/
inductive Rebroken : Str → Str → Prop
  | nil : Rebroken [] []
  | keep {c : Char} {t t' : Str} (hc : ¬ Newline c) (h : Rebroken t t') : Rebroken (c :: t) (c :: t')
  | break {nl nl' t t' : Str} (h1 : NewlineSeq nl t) (h2 : NewlineSeq nl' t') (h : Rebroken t t') : Rebroken (nl ++ t) (nl' ++ t')

/-- Line feeds turned into CRLF. -/
def crlf (s : Str) : Str := s.flatMap fun c => if c = '\n' then ['\r', '\n'] else [c]

end Kdl.Spec
