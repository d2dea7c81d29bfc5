import Verif.Lemmas.Parser.Breaks
import Verif.Props.Exact
/-
C66: line breaks are interchangeable.
-/

namespace Kdl
open Spec

section
variable [FloatIO]

/-- **C66**: exchanging line breaks of a text for other line breaks, everywhere and not necessarily for the same
one, does not change the data of the document, nor whether there is one. -/
theorem C66_document {s s' : Str} (h : Rebroken s s') (ds : List (SNode Value)) : Gives s ds ↔ Gives s' ds := by
  rw [C50_document, C50_document]
  exact ⟨documentInput_rebroken h, documentInput_rebroken (rebroken_symm h)⟩

/-- **C66**: it does not change whether the text is rejected. -/
theorem C66_rejected {s s' : Str} (h : Rebroken s s') : Document.parse s = .err ↔ Document.parse s' = .err := by
  rw [C50_document_rejected, C50_document_rejected]
  exact forall_congr' fun ds => not_congr (by rw [← C50_document, ← C50_document]; exact C66_document h ds)

/-- **C66**: the same for `KdlNode::parse`. -/
theorem C66_node {s s' : Str} (h : Rebroken s s') (d : SNode Value) :
    (∃ n, Node.parse s = .ok n ∧ semNode id n = d) ↔ ∃ n, Node.parse s' = .ok n ∧ semNode id n = d := by
  rw [C50_node, C50_node]
  exact ⟨nodeInput_rebroken h, nodeInput_rebroken (rebroken_symm h)⟩

/-- **C66**: the same for `KdlEntry::parse`. -/
theorem C66_entry {s s' : Str} (h : Rebroken s s') (d : SEntry Value) :
    (∃ e, Entry.parse s = .ok e ∧ semEntry id e = d) ↔ ∃ e, Entry.parse s' = .ok e ∧ semEntry id e = d := by
  rw [C50_entry, C50_entry]
  exact ⟨entryInput_rebroken h, entryInput_rebroken (rebroken_symm h)⟩

/-- **C66**: the same for `KdlIdentifier::parse`. -/
theorem C66_identifier {s s' : Str} (h : Rebroken s s') (v : Str) :
    (∃ i, Ident.parse s = .ok i ∧ i.value = v) ↔ ∃ i, Ident.parse s' = .ok i ∧ i.value = v := by
  rw [C50_identifier, C50_identifier]
  have : ∀ {s s' : Str}, Rebroken s s' → StrText s v → StrText s' v := by
    intro s s' h hv
    obtain ⟨κ, h1, _, rfl⟩ := rebroken_brk h
    exact hv.brk h1 _
  exact ⟨this h, this (rebroken_symm h)⟩

/-- **C66**: in particular, line feeds may be turned into CRLF. -/
theorem C66_crlf {s : Str} (h : '\r' ∉ s) (ds : List (SNode Value)) : Gives s ds ↔ Gives (crlf s) ds := C66_document (rebroken_crlf h) ds

/-- A multi-line string and a comment. The text of the string has line feeds, whatever line breaks the document has. -/
theorem C66_example : Gives "a \"\"\"\n  x\n  y\n  \"\"\" \\ // z\n  /* \n */ b\nc".toList
      [.mk none ['a'] [⟨none, none, .string "x\ny".toList⟩, ⟨none, none, .string ['b']⟩] none, .mk none ['c'] [] none] ∧
    '\r' ∉ "a \"\"\"\n  x\n  y\n  \"\"\" \\ // z\n  /* \n */ b\nc".toList ∧
    crlf "a\nb".toList = "a\r\nb".toList := ⟨gives_iff.mpr (by krfl), by decide, by decide⟩

/-- CR, NEL and CRLF. -/
theorem C66_example_mixed : Rebroken "a\nb\r\nc\n".toList "a\rb\u0085c\r\n".toList := by
  have hn : ∀ c : Char, Newline c → c ≠ '\r' → ∀ t, NewlineSeq [c] t := fun c h h' t => Or.inr ⟨c, rfl, h, fun e => absurd e h'⟩
  refine .keep (by decide) (.break (nl := ['\n']) (nl' := ['\r']) (hn _ (by decide) (by decide) _) (Or.inr ⟨_, rfl, by decide, fun _ q e => ?_⟩)
    (.keep (by decide) (.break (nl := ['\r', '\n']) (nl' := ['\u0085']) (Or.inl rfl) (hn _ (by decide) (by decide) _)
      (.keep (by decide) (.break (nl := ['\n']) (nl' := ['\r', '\n']) (hn _ (by decide) (by decide) _) (Or.inl rfl) .nil)))))
  exact absurd (List.cons.inj e).1 (by decide)

/-- A line break cannot be left out or put in: `Rebroken` is needed. -/
theorem C66_needed : Gives "a\nb".toList [.mk none ['a'] [] none, .mk none ['b'] [] none] ∧
    Gives "ab".toList [.mk none ['a', 'b'] [] none] ∧ Gives "a b".toList [.mk none ['a'] [⟨none, none, .string ['b']⟩] none] :=
  ⟨gives_iff.mpr (by krfl), gives_iff.mpr (by krfl), gives_iff.mpr (by krfl)⟩

end

end Kdl
