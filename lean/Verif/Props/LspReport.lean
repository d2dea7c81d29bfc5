import Verif.Model.LspReport
import Verif.Props.Faulty
import Verif.Props.Lsp
/-
C85: what is shown of diagnostics.
-/

namespace Kdl
open Spec Lsp

section
variable [FloatIO]

/-- **C85**, labels and messages: a diagnostic of a failed `KdlDocument::parse` is displayed as its message and has
one label, at its place, with its text; the texts for diagnostics without them are never needed. -/
theorem C85_displayed {s : Str} {ds : List Diagnostic} (h : Document.parseD s = .err ds) {d : Diagnostic} (hd : d ∈ ds) :
    d.message = some d.display ∧ ∃ l, d.label = some l ∧ d.labels = [(l, d.span)] := by
  have h1 := C76_document_partial s ds h d hd
  obtain ⟨m, hm⟩ := Option.isSome_iff_exists.mp h1.1
  obtain ⟨l, hl⟩ := Option.isSome_iff_exists.mp h1.2
  exact ⟨by simp [Diagnostic.display, hm], l, hl, by simp [Diagnostic.labels, hl]⟩

end

section
variable [V1Lib] [V1Errors] [V1Messages] [FloatIO]

/-- The reports with messages are those of `Lsp.diagnostic` but for the messages. -/
theorem report_items (m : Docs) (uri : Str) :
    ∃ o, (Lsp.report m uri).map (List.map Shown.item) = Lsp.diagnostic o m uri := by
  cases hm : m uri with
  | none =>
    obtain ⟨o, _⟩ := parseD_erased []
    exact ⟨o, by simp [Lsp.report, Lsp.diagnostic, hm]⟩
  | some s =>
    obtain ⟨o, _, _, _, ho, _⟩ := parseD_erased s
    refine ⟨o, ?_⟩
    simp only [Lsp.report, Lsp.diagnostic, hm, parseSpans, Document.parseFallbackD, ← ho]
    cases Document.parseD s with
    | ok d => rfl
    | panic => rfl
    | err ds =>
      simp only [DResult.erase]
      cases Document.parseV1 s with
      | some d => rfl
      | none =>
        by_cases hv : detectV1 s = true
        · simp [hv, v1Diagnostic, show_]
        · simp [hv, show_, Function.comp_def]

/-- **C85**, the reports: if the language server has the text `s` of a document, its report is empty exactly if
`KdlDocument::parse` (with fallback) accepts `s`. Otherwise, if `s` does not look like v1, it has one item
for each diagnostic of `KdlDocument::parse`, in order, with the range and the message of that diagnostic, which
always has one; and if it looks like v1, it has one item, with the message of the v1 parser. -/
theorem C85_report {m : Docs} {uri s : Str} (hm : m uri = some s) :
    ∃ items, Lsp.report m uri = some items ∧
      (items = [] ↔ ∃ d, Document.parseFallback s = .ok d) ∧
      ∀ ds, Document.parseD s = .err ds → V1Lib.parseDocument s = none →
        (¬ LooksV1 s → items.map (fun x => some x.message) = ds.map Diagnostic.message ∧
          items.map Shown.item = ds.map fun d =>
            ⟨byteToPosition d.span.offset s, byteToPosition (d.span.offset + d.span.len) s, .error⟩) ∧
        (LooksV1 s → ∃ i, items = [⟨i, V1Messages.kind s⟩]) := by
  have hv1 : Document.parseV1 s = none ↔ V1Lib.parseDocument s = none := by
    rw [Document.parseV1, Option.map_eq_none_iff]
  have hd := (C39_diagnosed s).1
  cases hp : Document.parseD s with
  | panic => exact absurd hp hd.2.2
  | ok d =>
    refine ⟨[], by simp [Lsp.report, hm, Document.parseFallbackD, hp],
      ⟨fun _ => ⟨d, (C69_document s).1 d ((hd.1 d).mp hp)⟩, fun _ => rfl⟩, fun ds h => by cases h⟩
  | err ds =>
    have herr : Document.parse s = .err := by
      rcases (C06_ok_or_err s).1 with ⟨d, h⟩ | h
      · rw [(hd.1 d).mpr h] at hp
        cases hp
      · exact h
    cases hv : V1Lib.parseDocument s with
    | some x =>
      obtain ⟨d, h3, _⟩ := (C69_document s).2.1 x herr hv
      exact ⟨[], by simp [Lsp.report, hm, Document.parseFallbackD, hp, Document.parseV1, hv],
        ⟨fun _ => ⟨d, h3⟩, fun _ => rfl⟩, fun ds' _ h => by cases h⟩
    | none =>
      have hrej := (C69_document s).2.2.2.1.mpr ⟨herr, hv⟩
      by_cases hl : LooksV1 s
      · refine ⟨[show_ s (v1Diagnostic s)], ?_, ⟨fun h => (by cases h), fun ⟨d, h⟩ => absurd h (hrej d)⟩, fun _ _ _ => ⟨absurd hl, fun _ => ⟨_, rfl⟩⟩⟩
        simp [Lsp.report, hm, Document.parseFallbackD, hp, hv1.mpr hv, detectV1_iff.mpr hl]
      · have hl' : ¬ detectV1 s = true := fun h => hl (detectV1_iff.mp h)
        refine ⟨ds.map (show_ s), by simp [Lsp.report, hm, Document.parseFallbackD, hp, hv1.mpr hv, hl'],
          ⟨fun h => absurd (List.map_eq_nil_iff.mp h) (hd.2.1 ds hp), fun ⟨d, h⟩ => absurd h (hrej d)⟩, ?_⟩
        intro ds' h _
        cases h
        refine ⟨fun _ => ⟨?_, by simp [show_, Function.comp_def]⟩, fun h => absurd h hl⟩
        rw [List.map_map]
        exact List.map_congr_left fun d hd => (C85_displayed hp hd).1.symm

/-- **C85** and C81: for a text with mistaken words the language server shows one item per mistake, in order, with its
range and message. -/
theorem C85_faulty {m : Docs} {uri t : Str} {fs : List Fault} (hm : m uri = some t) (h : Faulty .nodes [] fs t) (hne : fs ≠ [])
    (hv : V1Lib.parseDocument t = none) (hl : ¬ LooksV1 t) :
    Lsp.report m uri = some (fs.map fun f =>
      ⟨⟨byteToPosition (utf8Len f.before) t, byteToPosition (utf8Len f.before + utf8Len f.word) t, .error⟩,
        f.message.getD ("Expected " ++ f.what)⟩) := by
  have hp := (C81_partial h hne).1
  have hv1 : Document.parseV1 t = none := by rw [Document.parseV1, Option.map_eq_none_iff]; exact hv
  have hl' : ¬ detectV1 t = true := fun h => hl (detectV1_iff.mp h)
  simp only [Lsp.report, hm, Document.parseFallbackD, hp, hv1, if_neg hl', List.map_map]
  simp [Function.comp_def, show_, Fault.diagnostic, Diagnostic.display]

end

section
attribute [local instance] rustFloatIO

/-- For the other parse functions the substitutes are needed. -/
theorem C85_substitutes : ∃ d, Node.parseD [] = .err [d] ∧ d.display = "Unexpected error" ∧ d.labels = [("here", ⟨0, 0⟩)] :=
  ⟨⟨⟨0, 0⟩, none, none, none⟩, by krfl, rfl, rfl⟩

/-- A report with two items in two lines, if the v1 parser rejects the text. -/
theorem C85_example [V1Lib] [V1Errors] [V1Messages] {m : Docs} (hm : m "f".toList = some "é 1x\n\"b\" k=nan".toList)
    (hv : V1Lib.parseDocument "é 1x\n\"b\" k=nan".toList = none) :
    Lsp.report m "f".toList = some [⟨⟨⟨0, 2⟩, ⟨0, 4⟩, .error⟩, "Expected integer"⟩,
      ⟨⟨⟨1, 6⟩, ⟨1, 9⟩, .error⟩, "Expected identifier string"⟩] := by
  have hp : Document.parseD "é 1x\n\"b\" k=nan".toList = .err
    [⟨⟨3, 2⟩, some "Expected integer", some "not integer", some longHelp⟩,
     ⟨⟨12, 3⟩, some "Expected identifier string", some "not identifier string", none⟩] := by krfl
  have hd : detectV1 "é 1x\n\"b\" k=nan".toList = false := by krfl
  have hv1 : Document.parseV1 "é 1x\n\"b\" k=nan".toList = none := by rw [Document.parseV1, Option.map_eq_none_iff]; exact hv
  have hs : [(⟨⟨3, 2⟩, some "Expected integer", some "not integer", some longHelp⟩ : Diagnostic),
     ⟨⟨12, 3⟩, some "Expected identifier string", some "not identifier string", none⟩].map (show_ "é 1x\n\"b\" k=nan".toList) =
      [⟨⟨⟨0, 2⟩, ⟨0, 4⟩, .error⟩, "Expected integer"⟩, ⟨⟨⟨1, 6⟩, ⟨1, 9⟩, .error⟩, "Expected identifier string"⟩] := by decide
  simp only [Lsp.report, hm, Document.parseFallbackD, hp, hv1, hd, hs]
  rfl

end

end Kdl
