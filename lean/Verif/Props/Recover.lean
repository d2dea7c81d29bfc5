import Verif.Lemmas.RecoverGrammar
import Verif.Lemmas.RecoverSpans
import Verif.Props.Parse
/-
C39: error recovery never turns a failing parse into a successful one or the other way
round, whatever it does; C06 for the parser with recovery; and C55: its diagnostics
point into the text.
-/

namespace Kdl

section
variable [FloatIO] (o : Recovery)

/-- All that recovery does to the four parse functions. -/
theorem parseR_all (s : Str) :
    ((∀ d, Document.parseR o s = .ok d ↔ Document.parse s = .ok d) ∧
      (∀ ds, Document.parseR o s = .err ds → ds ≠ []) ∧ Document.parseR o s ≠ .panic) ∧
    ((∀ d, Node.parseR o s = .ok d ↔ Node.parse s = .ok d) ∧
      (∀ ds, Node.parseR o s = .err ds → ds ≠ []) ∧ Node.parseR o s ≠ .panic) ∧
    ((∀ d, Entry.parseR o s = .ok d ↔ Entry.parse s = .ok d) ∧
      (∀ ds, Entry.parseR o s = .err ds → ds ≠ []) ∧ Entry.parseR o s ≠ .panic) ∧
    ((∀ d, Ident.parseR o s = .ok d ↔ Ident.parse s = .ok d) ∧
      (∀ ds, Ident.parseR o s = .err ds → ds ≠ []) ∧ Ident.parseR o s ≠ .panic) := by
  obtain ⟨h1, h2, h3, h4⟩ := C06_parse_total s
  exact ⟨tryParse_R o (Safe.documentR o) (Sim.documentR o) s h1,
    tryParse_R o (Safe.paddedNodeR o) (Sim.paddedNodeR o) s h2,
    tryParse_R o (Safe.paddedNodeEntryR o) (Sim.paddedNodeEntryR o) s h3,
    tryParse_R o (Safe.identifierR o) (Sim.identifierR o) s h4⟩

/-- **C39**, first part. For every recovery behaviour, `parse` returns `Ok(x)` exactly if the parser
that gives up at the first fatal error returns `x`. In particular the outcome does not depend on how
recovery resumes, and the strict reading on which the other theorems rest is the right one. -/
theorem C39_ok_iff (s : Str) :
    (∀ d, Document.parseR o s = .ok d ↔ Document.parse s = .ok d) ∧
    (∀ n, Node.parseR o s = .ok n ↔ Node.parse s = .ok n) ∧
    (∀ e, Entry.parseR o s = .ok e ↔ Entry.parse s = .ok e) ∧
    (∀ i, Ident.parseR o s = .ok i ↔ Ident.parse s = .ok i) := by
  obtain ⟨h1, h2, h3, h4⟩ := parseR_all o s
  exact ⟨h1.1, h2.1, h3.1, h4.1⟩

/-- **C39**, second part. An `Err` carries at least one diagnostic. -/
theorem C39_err_has_diagnostic (s : Str) (ds : List Span) :
    (Document.parseR o s = .err ds → ds ≠ []) ∧ (Node.parseR o s = .err ds → ds ≠ []) ∧
    (Entry.parseR o s = .err ds → ds ≠ []) ∧ (Ident.parseR o s = .err ds → ds ≠ []) := by
  obtain ⟨h1, h2, h3, h4⟩ := parseR_all o s
  exact ⟨h1.2.1 ds, h2.2.1 ds, h3.2.1 ds, h4.2.1 ds⟩

/-- **C06** with error recovery: `Ok`, or `Err` with diagnostics, on every text; and `Err` exactly if
the strict parser fails. -/
theorem C06_recovering (s : Str) :
    ((∃ d, Document.parseR o s = .ok d) ∨ (∃ ds, Document.parseR o s = .err ds)) ∧
    ((∃ n, Node.parseR o s = .ok n) ∨ (∃ ds, Node.parseR o s = .err ds)) ∧
    ((∃ e, Entry.parseR o s = .ok e) ∨ (∃ ds, Entry.parseR o s = .err ds)) ∧
    ((∃ i, Ident.parseR o s = .ok i) ∨ (∃ ds, Ident.parseR o s = .err ds)) := by
  obtain ⟨h1, h2, h3, h4⟩ := parseR_all o s
  refine ⟨?_, ?_, ?_, ?_⟩
  · cases h : Document.parseR o s with
    | ok d => exact Or.inl ⟨d, rfl⟩
    | err n => exact Or.inr ⟨n, rfl⟩
    | panic => exact absurd h h1.2.2
  · cases h : Node.parseR o s with
    | ok d => exact Or.inl ⟨d, rfl⟩
    | err n => exact Or.inr ⟨n, rfl⟩
    | panic => exact absurd h h2.2.2
  · cases h : Entry.parseR o s with
    | ok d => exact Or.inl ⟨d, rfl⟩
    | err n => exact Or.inr ⟨n, rfl⟩
    | panic => exact absurd h h3.2.2
  · cases h : Ident.parseR o s with
    | ok d => exact Or.inl ⟨d, rfl⟩
    | err n => exact Or.inr ⟨n, rfl⟩
    | panic => exact absurd h h4.2.2

/-- **C39**: the outcome is independent of recovery. -/
theorem C39_independent (o' : Recovery) (s : Str) (d : Document) :
    Document.parseR o s = .ok d ↔ Document.parseR o' s = .ok d :=
  ((C39_ok_iff o s).1 d).trans ((C39_ok_iff o' s).1 d).symm

/-- **C55**. Every diagnostic of a failed parse points into the text: it begins and ends on the
boundaries of characters, inside the text, whatever recovery does. -/
theorem C55_diagnostics_in_text (s : Str) (ds : List Span) :
    (Document.parseR o s = .err ds → ∀ d ∈ ds, ∃ t, Spec.Selects s d t) ∧
    (Node.parseR o s = .err ds → ∀ d ∈ ds, ∃ t, Spec.Selects s d t) ∧
    (Entry.parseR o s = .err ds → ∀ d ∈ ds, ∃ t, Spec.Selects s d t) ∧
    (Ident.parseR o s = .err ds → ∀ d ∈ ds, ∃ t, Spec.Selects s d t) :=
  ⟨tryParse_spans o _ (fun n _ => .documentR o n) s, tryParse_spans o _ (fun n _ => .paddedNodeR o n) s,
    tryParse_spans o _ (fun n _ => .paddedNodeEntryR o n) s, tryParse_spans o _ (fun n _ => .identifierR o n) s⟩

end

/-! ### Concrete cases -/

section
variable [FloatIO]

/-- A recovery that skips to the next space. -/
def skipRecovery : Recovery where
  resume _ s := some (s.dropWhile (· ≠ ' '))
  failed _ s := s
  rawRegion _ := none
  forward _ s r h := by
    cases h
    exact ⟨s.takeWhile (· ≠ ' '), (List.takeWhile_append_dropWhile).symm⟩
  forward_failed _ s := ⟨[], rfl⟩
  forward_raw _ _ h := by cases h

/-- A recovery that always fails. -/
def noRecovery : Recovery where
  resume _ _ := none
  failed _ s := s
  rawRegion _ := none
  forward _ _ _ h := by cases h
  forward_failed _ s := ⟨[], rfl⟩
  forward_raw _ _ h := by cases h

/-- The spans of the diagnostics, as offset and length. -/
def RResult.diagnostics {α : Type} : RResult α → Option (List (Nat × Nat))
  | .ok _ => some []
  | .err ds => some (ds.map fun d => (d.offset, d.len))
  | .panic => none

-- `1x` is not a value; recovery goes on with the next entry, without it the parse ends there.
example : (Document.parseR skipRecovery "a 1x b \"".toList).diagnostics = some [(2, 2), (7, 1)] := by krfl
example : (Document.parseR noRecovery "a 1x b \"".toList).diagnostics = some [(2, 0)] := by krfl
-- a missing brace: the opening one, and what follows it; offsets are in bytes
example : (Document.parseR noRecovery "a {b".toList).diagnostics = some [(2, 1), (3, 1)] := by krfl
example : (Document.parseR noRecovery "é {é".toList).diagnostics = some [(3, 1), (4, 2)] := by krfl
-- a block in place of a node: its opening brace
example : (Document.parseR noRecovery "a\n{ b }\nc".toList).diagnostics = some [(2, 1)] := by krfl
-- text after the end of the document
example : (Document.parseR noRecovery "a}b}".toList).diagnostics = some [(1, 1), (3, 1)] := by krfl
example : (Document.parseR noRecovery "a 1 {\n  b\n}".toList).diagnostics = some [] := by krfl

end

end Kdl
