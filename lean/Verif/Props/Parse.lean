import Verif.Lemmas.Parser.Lossless
import Verif.Lemmas.KernelRfl
/-
C01-C06 and the unconditional part of C11: parsing is total, and what is printed
for a parsed text is compared with that text.
-/

namespace Kdl
open Spec

section
variable [FloatIO]

/-! ### C06: totality -/

/-- **C06.** Each of the four parse functions returns `Ok` or `Err`, on every
text. -/
theorem C06_parse_total (s : Str) :
    Document.parse s ≠ .panic ∧ Node.parse s ≠ .panic ∧ Entry.parse s ≠ .panic ∧
      Ident.parse s ≠ .panic :=
  ⟨fun h => tryParse_panic h (fun n => OkTo.documentP _ n) (Sfx.documentP _),
   fun h => tryParse_panic h (fun n => OkTo.paddedNode _ n) (Sfx.paddedNode _),
   fun h => tryParse_panic h (fun n => OkTo.paddedNodeEntry _ n) (Sfx.paddedNodeEntry _),
   fun h => tryParse_panic h (fun n => OkTo.identifier _ n) (Strict.identifier _).sfx⟩

/-- **C06**, as a case distinction. -/
theorem C06_ok_or_err (s : Str) :
    ((∃ d, Document.parse s = .ok d) ∨ Document.parse s = .err) ∧
    ((∃ n, Node.parse s = .ok n) ∨ Node.parse s = .err) ∧
    ((∃ e, Entry.parse s = .ok e) ∨ Entry.parse s = .err) ∧
    ((∃ i, Ident.parse s = .ok i) ∨ Ident.parse s = .err) := by
  obtain ⟨h1, h2, h3, h4⟩ := C06_parse_total s
  refine ⟨?_, ?_, ?_, ?_⟩
  · cases h : Document.parse s with
    | ok d => exact Or.inl ⟨d, rfl⟩
    | err => exact Or.inr rfl
    | panic => exact absurd h h1
  · cases h : Node.parse s with
    | ok d => exact Or.inl ⟨d, rfl⟩
    | err => exact Or.inr rfl
    | panic => exact absurd h h2
  · cases h : Entry.parse s with
    | ok d => exact Or.inl ⟨d, rfl⟩
    | err => exact Or.inr rfl
    | panic => exact absurd h h3
  · cases h : Ident.parse s with
    | ok d => exact Or.inl ⟨d, rfl⟩
    | err => exact Or.inr rfl
    | panic => exact absurd h h4

/-! ### C02, C03: entries and identifiers -/

/-- **C02.** -/
theorem C02_entry_lossless (s : Str) (e : Entry) (h : Entry.parse s = .ok e) : e.display = s :=
  Entry.parse_text h

/-- **C03.** -/
theorem C03_identifier_lossless (s : Str) (i : Ident) (h : Ident.parse s = .ok i) :
    i.display = s ∧ i.repr = some s := by
  obtain ⟨t, _, ht, hr, _⟩ := identifier_inv (tryParse_ok.mp h)
  simp only [List.append_nil] at ht
  subst ht
  exact ⟨by simp [Ident.display, hr], hr⟩

/-! ### C05: nothing is invented or reordered -/

/-- **C05**, documents. -/
theorem C05_document_subsequence (s : Str) (d : Document) (h : Document.parse s = .ok d) :
    List.Sublist d.display s := by
  obtain ⟨_, f, body, _, hst, hsub, _⟩ := documentP_text (tryParse_ok.mp h)
  rw [Document.display, hst]
  exact hsub

/-- **C05**, nodes. -/
theorem C05_node_subsequence (s : Str) (n : Node) (h : Node.parse s = .ok n) :
    List.Sublist n.display s := (Node.parse_text h).1

/-! ### C01, C04: losslessness -/

/-- **C01**, partial. The printed text is the source, provided no node has space
or comments in or after its type annotation, and every node with children either
recorded a terminator or no `}` of the source is directly followed by something
skippable. Both provisos are needed, see `C01_violated_annotation` and
`C01_violated_children`. -/
theorem C01_document_lossless_partial (s : Str) (d : Document) (h : Document.parse s = .ok d)
    (hp : PrintableDoc (NoGap s) d) : d.display = s := by
  obtain ⟨_, f, body, _, hst, _, heq⟩ := documentP_text (tryParse_ok.mp h)
  rw [Document.display, hst]
  exact heq hp

/-- **C04**, partial: as `C01_document_lossless_partial`. -/
theorem C04_node_lossless_partial (s : Str) (n : Node) (h : Node.parse s = .ok n)
    (hp : Printable (NoGap s) n) : n.display = s := (Node.parse_text h).2 hp

/-- **C11**, partial: a document that prints losslessly reparses to itself. -/
theorem C11_reparse_partial (s : Str) (d : Document) (h : Document.parse s = .ok d)
    (hp : PrintableDoc (NoGap s) d) : Document.parse d.display = .ok d := by
  rw [C01_document_lossless_partial s d h hp]
  exact h

end

/-! ### Where the code violates C01, C04 and C11

`Spec.reprint` evaluates parsing and printing on a literal. -/

/-- What is printed for a text, if it is accepted. -/
def Spec.reprint [FloatIO] (s : Str) : Option Str :=
  match Document.parse s with
  | .ok d => some d.display
  | _ => none

theorem reprint_some [FloatIO] {s t : Str} (h : Spec.reprint s = some t) :
    ∃ d, Document.parse s = .ok d ∧ d.display = t := by
  unfold Spec.reprint at h
  cases hd : Document.parse s with
  | ok d => rw [hd] at h; exact ⟨d, rfl, Option.some.inj h⟩
  | err => rw [hd] at h; cases h
  | panic => rw [hd] at h; cases h

/-- `(ty) node` prints as `(ty)node`, and `( ty )node` too: C01 fails. -/
theorem C01_violated_annotation [FloatIO] :
    (∃ d, Document.parse "(ty) node".toList = .ok d ∧ d.display = "(ty)node".toList) ∧
    (∃ d, Document.parse "( ty )node".toList = .ok d ∧ d.display = "(ty)node".toList) :=
  ⟨reprint_some (by krfl), reprint_some (by krfl)⟩

/-- A space between the closing brace and the terminator makes both disappear:
`a { } ;b` prints as `a { }b`. C01 fails. -/
theorem C01_violated_children [FloatIO] :
    ∃ d, Document.parse "a { } ;b".toList = .ok d ∧ d.display = "a { }b".toList :=
  reprint_some (by krfl)

/-- The same with a trailing space at the end of a line, `a {} \nb`. -/
theorem C01_violated_trailing_space [FloatIO] :
    ∃ d, Document.parse "a {} \nb".toList = .ok d ∧ d.display = "a {}b".toList :=
  reprint_some (by krfl)

/-- The negation of C01. -/
theorem C01_violated [FloatIO] :
    ¬ ∀ (s : Str) (d : Document), Document.parse s = .ok d → d.display = s := by
  intro h
  obtain ⟨d, h1, h2⟩ := C01_violated_children
  have := h _ d h1
  rw [h2] at this
  revert this
  decide

/-- `(ty) node` as a node: C04 fails. -/
theorem C04_violated [FloatIO] :
    ¬ ∀ (s : Str) (n : Node), Node.parse s = .ok n → n.display = s := by
  intro h
  have h1 : (match Node.parse "(ty) node".toList with | .ok n => n.display | _ => []) =
      "(ty)node".toList := by krfl
  cases hn : Node.parse "(ty) node".toList with
  | ok n =>
    rw [hn] at h1
    have := h _ n hn
    simp only at h1
    rw [this] at h1
    revert h1
    decide
  | err => rw [hn] at h1; cases h1
  | panic => rw [hn] at h1; cases h1

/-- C11 fails: `a { } ;b` is accepted, but what is printed for it is not. -/
theorem C11_violated [FloatIO] :
    ∃ s d, Document.parse s = .ok d ∧ Document.parse d.display = .err := by
  obtain ⟨d, h1, h2⟩ := C01_violated_children
  refine ⟨_, d, h1, ?_⟩
  rw [h2]
  krfl

/-! ### The hypotheses can be met -/

/-- A document with an annotation, a comment, entries and two levels of
children, meeting the hypotheses of the partial theorems. -/
def Spec.sample : Str := "(t)a x=1 /*c*/ 2 {\n  b #true;\n}\n// end\n".toList

theorem Spec.sample_ok [FloatIO] : ∃ d, Document.parse Spec.sample = .ok d ∧
    PrintableDoc (NoGap Spec.sample) d := by
  refine ⟨.mk [.mk (some ⟨"t".toList, some "t".toList, ⟨1, 1⟩⟩) ⟨"a".toList, some "a".toList, ⟨3, 1⟩⟩
    [⟨none, .integer ⟨1, by decide, by decide⟩, some ⟨"x".toList, some "x".toList, ⟨5, 1⟩⟩,
        some { valueRepr := "1".toList, leading := " ".toList }, ⟨5, 3⟩⟩,
     ⟨none, .integer ⟨2, by decide, by decide⟩, none, some { valueRepr := "2".toList, leading := " /*c*/ ".toList }, ⟨15, 1⟩⟩]
    (some (.mk [.mk none ⟨"b".toList, some "b".toList, ⟨21, 1⟩⟩
        [⟨none, .bool true, none, some { valueRepr := "#true".toList, leading := " ".toList }, ⟨23, 5⟩⟩]
        none (some { leading := "\n  ".toList, terminator := ";".toList }) ⟨21, 7⟩]
      (some { trailing := "\n".toList }) ⟨21, 7⟩))
    (some { beforeChildren := " ".toList, terminator := "\n".toList }) ⟨0, 31⟩]
    (some { trailing := "// end\n".toList }) ⟨0, 31⟩, by krfl, ?_⟩
  simp [PrintableDoc, PrintableNodes, Printable, PrintableOpt]

example [FloatIO] : ∃ d, Document.parse Spec.sample = .ok d ∧ d.display = Spec.sample := by
  obtain ⟨d, h1, h2⟩ := Spec.sample_ok
  exact ⟨d, h1, C01_document_lossless_partial _ d h1 h2⟩

end Kdl
