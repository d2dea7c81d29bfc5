import Verif.Lemmas.Parser.EditText
import Verif.Props.Exact
import Verif.Props.Build
import Verif.Lemmas.Parser.Shown
/-
C52: parsed documents, edited and printed.
-/

namespace Kdl
open Spec

section
variable [FloatIO]

/-- **C52**, partial: a document is parsed, and then any of its names, annotations and lists of
entries, at any depth, are exchanged for others that can be printed. The printed document
is accepted, and has the data of the edited document. Missing from C52: documents where two
nodes in a row are not parted by what the parser has recorded
(`C52_violated_terminator`), and new entries in front of a slashdash
(`C52_violated_slashdash`). -/
theorem C52_edit_partial {s : Str} {d e : Document} (h : Document.parse s = .ok d) (he : EditedDoc d e) :
    Gives e.display (semDoc id e) := by
  obtain ⟨D, d', hD, ⟨rfl, rfl⟩ | ⟨rfl, rfl⟩⟩ := parse_exact h
  · exact C50_document.mpr ⟨_, Or.inl rfl, hD.edit e 0 [] he (Or.inl rfl)⟩
  · obtain ⟨f, hf⟩ := hD.formatDoc
    obtain ⟨ns, f0, sp⟩ := d'
    obtain rfl : f0 = some f := hf
    cases he with
    | @mk _ ns' _ _ sp' h1 =>
      have h2 := hD.edit (.mk ns' (some f) sp') 0 [] (.mk h1) (Or.inl rfl)
      refine C50_document.mpr ⟨(Document.mk ns' (some f) sp').display, Or.inr ?_, h2⟩
      simp [Document.display, Document.stringify, Document.format]

/-- **C11**, partial: a parsed document in which any two nodes in a row are parted by what the
parser has recorded. The printed text is accepted and has the same data, whether or not it
is the text that was parsed. Missing from C11: the other documents (`C11_violated`); their
printed texts are all rejected, see `C11_exact`. -/
theorem C11_data_partial {s : Str} {d : Document} (h : Document.parse s = .ok d) (ht : Terminated d) :
    Gives d.display (semDoc id d) := C52_edit_partial h ht.edited

/-! ### Concrete cases -/

mutual
/-- `TerminatedNode`, computed. -/
def terminatedNodeB : Node → Bool
  | .mk _ _ _ ch _ _ => terminatedOptB ch
/-- `Terminated` for a children block, computed. -/
def terminatedOptB : Option Document → Bool
  | none => true
  | some d => terminatedB d
/-- `Terminated`, computed. -/
def terminatedB : Document → Bool
  | .mk ns _ _ => terminatedNodesB ns
/-- `Terminated` for a list of nodes, computed. -/
def terminatedNodesB : List Node → Bool
  | [] => true
  | n :: ns => terminatedNodeB n && (ns.isEmpty || !(terminatorOf n).isEmpty) && terminatedNodesB ns
end

omit [FloatIO] in
mutual
theorem terminatedNodeB_ok : ∀ {n : Node}, terminatedNodeB n = true → TerminatedNode n
  | .mk _ _ _ ch _ _, h => .mk fun d hd => terminatedOptB_ok (ch := ch) h d hd
theorem terminatedOptB_ok : ∀ {ch : Option Document}, terminatedOptB ch = true → ∀ d, ch = some d → Terminated d
  | none, _, _, e => by cases e
  | some d, h, d', e => by
    cases e
    exact terminatedB_ok (d := d) h
theorem terminatedB_ok : ∀ {d : Document}, terminatedB d = true → Terminated d
  | .mk ns _ _, h => .mk (terminatedNodesB_ok (ns := ns) h).1 (terminatedNodesB_ok (ns := ns) h).2
theorem terminatedNodesB_ok : ∀ {ns : List Node}, terminatedNodesB ns = true →
    (∀ n ∈ ns, TerminatedNode n) ∧ PartedAll ns
  | [], _ => by simp [PartedAll]
  | n :: ns, h => by
    simp only [terminatedNodesB, Bool.and_eq_true, Bool.or_eq_true] at h
    obtain ⟨⟨h1, h2⟩, h3⟩ := h
    have h4 := terminatedNodeB_ok (n := n) h1
    obtain ⟨h5, h6⟩ := terminatedNodesB_ok (ns := ns) h3
    refine ⟨fun m hm => ?_, ?_⟩
    · rcases List.mem_cons.mp hm with rfl | hm
      · exact h4
      · exact h5 m hm
    · cases ns with
      | nil => trivial
      | cons n2 ns => exact ⟨Or.inl (by simpa using h2), h6⟩
end

/-- The first node of a document gets another name. -/
def renameFirst (d : Document) (i : Ident) : Document :=
  match d with
  | .mk (n :: ns) f sp => .mk (n.setName i :: ns) f sp
  | d => d

theorem renameFirst_edited {d : Document} (h : Terminated d) {i : Ident} (hi : ReadableIdent i) : EditedDoc d (renameFirst d i) := by
  have h' := h.edited
  cases h' with
  | mk h1 =>
    cases h1 with
    | nil => exact .mk .nil
    | last h2 hg =>
      cases h2 with
      | mk a b c e => exact .mk (.last (.mk a (Or.inr hi) c e) (Or.inl rfl))
    | cons h2 ht hr =>
      cases h2 with
      | mk a b c e => exact .mk (.cons (.mk a (Or.inr hi) c e) ht hr)

/-- A document with comments, slashdashes, an annotation and a children block. -/
def inPlaceSample : Str := "// c\n(t)a 1 /*d*/ k=v /-2 {\n  b #true; c\n}\nd".toList

/-- The hypotheses of C11 and C52 can be met. -/
theorem C52_example : ∃ d e, Document.parse inPlaceSample = .ok d ∧ Terminated d ∧ EditedDoc d e ∧
    e.display = "// c\n(t)\"x y\" 1 /*d*/ k=v /-2 {\n  b #true; c\n}\nd".toList ∧ Gives e.display (semDoc id e) := by
  obtain ⟨d, h1, h2⟩ := ParseResult.holds_ok (r := Document.parse inPlaceSample)
    (f := fun d : Document => terminatedB d && decide ((renameFirst d (.ofStr "x y".toList)).display =
      "// c\n(t)\"x y\" 1 /*d*/ k=v /-2 {\n  b #true; c\n}\nd".toList)) (by krfl)
  rw [Bool.and_eq_true] at h2
  have ht := terminatedB_ok h2.1
  have hi : ReadableIdent (Ident.ofStr "x y".toList) := StrText.ident rfl ⟨by decide, by
    rintro ⟨⟨g, c, t, hg, _, e⟩, _⟩
    simp [Ident.ofStr] at e⟩
  exact ⟨d, _, h1, ht, renameFirst_edited ht hi, of_decide_eq_true h2.2, C52_edit_partial h1 (renameFirst_edited ht hi)⟩

/-! ### Where the code violates C52 -/

/-- C52 is violated if nothing is changed, but the terminator of a node is not recorded. -/
theorem C52_violated_terminator : ∃ s d, Document.parse s = .ok d ∧ Document.parse d.display = .err := C11_violated

/-- The first node of a document gets a further entry. -/
def pushFirst (d : Document) (e : Entry) : Document :=
  match d with
  | .mk (n :: ns) f sp => .mk (n.push e :: ns) f sp
  | d => d

/-- C52 is violated: a node that ends with a keyword may be followed directly by a
slashdash. With a further entry this is not so. -/
theorem C52_violated_slashdash : ∃ d, Document.parse "a #true/-b".toList = .ok d ∧
    Document.parse (pushFirst d (.new (.integer ⟨1, by decide⟩))).display = .err := by
  obtain ⟨d, h1, h2⟩ := ParseResult.holds_ok (r := Document.parse "a #true/-b".toList)
    (f := fun d : Document => decide ((pushFirst d (.new (.integer ⟨1, by decide⟩))).display = "a #true 1/-b".toList)) (by krfl)
  refine ⟨d, h1, ?_⟩
  rw [of_decide_eq_true h2]
  krfl

end

end Kdl
