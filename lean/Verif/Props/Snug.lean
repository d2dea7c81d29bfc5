import Verif.Lemmas.Parser.Snug
import Verif.Lemmas.Parser.Lost
import Verif.Props.InPlace
/-
C01, C04 and C11, decided exactly: which accepted texts are printed as they were, and for
which ones the printed text is accepted again.
-/

namespace Kdl
open Spec

section
variable [FloatIO]

/-- **C01**, exactly: an accepted document is printed as it was if and only if its text has no
space in or after the type annotation of a node, and no space between the closing brace
of a children block (with the slashdashed blocks after it) and what follows. Comments and
line continuations count as space. -/
theorem C01_exact {s : Str} {d : Document} (h : Document.parse s = .ok d) :
    d.display = s ↔ SnugDocument (semDoc id d) s := documentDisplay_iff h

/-- **C01**, without the parsed document: the texts that are accepted and printed as they
were are those of the grammar without such space. -/
theorem C01_exact_texts {s : Str} :
    (∃ d, Document.parse s = .ok d ∧ d.display = s) ↔ ∃ ds, SnugDocument ds s := by
  constructor
  · rintro ⟨d, h1, h2⟩
    exact ⟨_, (C01_exact h1).mp h2⟩
  · rintro ⟨ds, h⟩
    obtain ⟨t, ht, hs⟩ := h
    obtain ⟨d, h1, h2⟩ := C50_document.mpr ⟨t, ht, hs.text⟩
    exact ⟨d, h1, (C01_exact h1).mpr (by rw [h2]; exact ⟨t, ht, hs⟩)⟩

/-- **C04**, exactly: as C01, for a single node. -/
theorem C04_exact {s : Str} {n : Node} (h : Node.parse s = .ok n) :
    n.display = s ↔ SnugNode (semNode id n) s := nodeDisplay_iff h

/-- **C11**, exactly: the printed text of a parsed document is accepted with the same data if
and only if any two nodes in a row, at every depth, are parted: by the terminator recorded
with the first one, or by a line break in the text recorded in front of the second one. -/
theorem C11_exact {s : Str} {d : Document} (h : Document.parse s = .ok d) :
    Gives d.display (semDoc id d) ↔ Terminated d :=
  ⟨fun ⟨d2, h2, _⟩ => Classical.byContradiction fun ht => lost_parse h ht d2 h2, C11_data_partial h⟩

/-- **C11**, the other documents: the printed text is rejected. It is never accepted with other
data. -/
theorem C11_rejected {s : Str} {d : Document} (h : Document.parse s = .ok d) (ht : ¬ Terminated d) :
    Document.parse d.display = .err := by
  rcases (C06_ok_or_err d.display).1 with ⟨d2, h2⟩ | h2
  · exact absurd h2 (lost_parse h ht d2)
  · exact h2

/-- **C11**, a consequence: if the printed text is accepted at all, it has the same data. -/
theorem C11_accepted {s : Str} {d d2 : Document} (h : Document.parse s = .ok d) (h2 : Document.parse d.display = .ok d2) :
    semDoc id d2 = semDoc id d := by
  obtain ⟨d3, h3, h4⟩ := (C11_exact h).mpr (Classical.byContradiction fun ht => lost_parse h ht d2 h2)
  rw [h2] at h3
  cases h3
  exact h4

/-! ### Concrete cases -/

/-- Comments with braces, a slashdashed block after the children, an annotation. -/
def snugSample : Str := "/* } */ (t)a 1 {\n  b {};c\n}/-{ }\n/- (t) d { } \n e".toList

/-- A text that is printed as it was. The slashdashed node at its end has space where a node
may not have any. -/
theorem C01_exact_example : ∃ d, Document.parse snugSample = .ok d ∧ d.display = snugSample ∧
    SnugDocument (semDoc id d) snugSample := by
  obtain ⟨d, h1, h2⟩ := reprint_some (s := snugSample) (t := snugSample) (by krfl)
  exact ⟨d, h1, h2, (C01_exact h1).mp h2⟩

/-- A text that is not. -/
theorem C01_exact_example_not : ∃ d, Document.parse "(t) a".toList = .ok d ∧ ¬ SnugDocument (semDoc id d) "(t) a".toList := by
  obtain ⟨d, h1, h2⟩ := reprint_some (s := "(t) a".toList) (t := "(t)a".toList) (by krfl)
  refine ⟨d, h1, fun h => ?_⟩
  rw [(C01_exact h1).mpr h] at h2
  revert h2
  decide

/-- A node with a comment around it that is printed as it was. -/
theorem C04_exact_example : ∃ n, Node.parse "// }\n(t)a {b;}/-{ }; // c\n".toList = .ok n ∧
    SnugNode (semNode id n) "// }\n(t)a {b;}/-{ }; // c\n".toList := by
  obtain ⟨n, h1, h2⟩ := ParseResult.holds_ok (r := Node.parse "// }\n(t)a {b;}/-{ }; // c\n".toList)
    (f := fun n : Node => decide (n.display = "// }\n(t)a {b;}/-{ }; // c\n".toList)) (by krfl)
  exact ⟨n, h1, (C04_exact h1).mp (of_decide_eq_true h2)⟩

/-- Two nodes parted by a line break that is recorded with the second one: the text is printed
differently, but has the same data. -/
theorem C11_exact_example : ∃ d, Document.parse "a {} \n\nb".toList = .ok d ∧ d.display = "a {}\nb".toList ∧ Terminated d := by
  obtain ⟨d, h1, h2⟩ := reprint_some (s := "a {} \n\nb".toList) (t := "a {}\nb".toList) (by krfl)
  obtain ⟨d2, h3, _⟩ := reprint_some (s := "a {}\nb".toList) (t := "a {}\nb".toList) (by krfl)
  refine ⟨d, h1, h2, Classical.byContradiction fun ht => ?_⟩
  have := C11_rejected h1 ht
  rw [h2, h3] at this
  cases this

/-- Two nodes that are not parted. -/
theorem C11_rejected_example : ∃ d, Document.parse "a { } ;b".toList = .ok d ∧ ¬ Terminated d := by
  obtain ⟨d, h1, h2⟩ := C01_violated_children
  refine ⟨d, h1, fun ht => ?_⟩
  obtain ⟨d2, h3, _⟩ := (C11_exact h1).mpr ht
  have h4 : Document.parse "a { }b".toList = .err := by krfl
  rw [h2, h4] at h3
  cases h3

end

end Kdl
