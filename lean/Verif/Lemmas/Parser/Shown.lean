import Verif.Props.Build
import Verif.Lemmas.Parser.ValText
import Verif.Lemmas.Parser.Parts
/-
Identifiers whose text is read back, and a way to state concrete parser runs.
-/

namespace Kdl
open Spec

section
variable [FloatIO]

/-- The identifier's text is read back as its value: it has no text of its own and
its value can be written, or it comes from a parsed document. -/
def Spec.Shown (i : Ident) : Prop := (i.repr = none ∧ Writable i.value) ∨ ∃ t, i.repr = some t ∧ StrText t i.value

theorem Spec.Shown.tok {i : Ident} (h : Shown i) : StrTok i.value i.display := by
  rcases h with ⟨h1, h2⟩ | ⟨t, h1, h2⟩
  · exact StrTok.ident h1 h2
  · unfold Ident.display
    rw [h1]
    exact StrTok.text h2

theorem identifier_shown {total : Nat} {s r : Str} {i : Ident} (h : identifier total s = .ok i r) : Shown i := by
  obtain ⟨t, _, e, h1, _, h2⟩ := identifier_inv h
  obtain ⟨t', e', h3, _⟩ := stringP_iff.mp h2
  rw [e] at e'
  rw [← List.append_cancel_right e'] at h3
  exact Or.inr ⟨t, h1, h3⟩

/-- Whether a result is a success of the given kind. -/
def ParseResult.holds {α : Type} (f : α → Bool) : ParseResult α → Bool
  | .ok a => f a
  | _ => false

omit [FloatIO] in
theorem ParseResult.holds_ok {α : Type} {f : α → Bool} {r : ParseResult α} (h : r.holds f = true) :
    ∃ a, r = .ok a ∧ f a = true := by
  cases r with
  | ok a => exact ⟨a, rfl, h⟩
  | _ => cases h

end

end Kdl
