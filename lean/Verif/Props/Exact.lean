import Verif.Lemmas.Parser.ExactInput
import Verif.Props.Slashdash
import Verif.Props.Parse
import Verif.Props.Strings
/-
C50, C51: the language that the parser accepts, and what separates nodes.
-/

namespace Kdl
open Spec

section
variable [FloatIO]

/-! ### C50 -/

/-- **C50**: `KdlDocument::parse` accepts exactly the texts of the document grammar, after
an optional byte order mark, and gives them the data that the grammar gives them. -/
theorem C50_document {s : Str} {ds : List (SNode Value)} : Gives s ds ↔ DocumentInput ds s := documentParse_iff

/-- **C50**: every other text is an error. -/
theorem C50_document_rejected {s : Str} : Document.parse s = .err ↔ ∀ ds, ¬ DocumentInput ds s := by
  constructor
  · intro h ds hd
    obtain ⟨d, h1, _⟩ := documentParse_iff.mpr hd
    rw [h] at h1; cases h1
  · intro h
    rcases (C06_ok_or_err s).1 with ⟨d, hd⟩ | h1
    · exact absurd (documentParse_iff.mp ⟨d, hd, rfl⟩) (h _)
    · exact h1

/-- **C50**: `KdlNode::parse` accepts exactly the texts of single nodes. -/
theorem C50_node {s : Str} {d : SNode Value} : (∃ n, Node.parse s = .ok n ∧ semNode id n = d) ↔ NodeInput d s := nodeParse_iff

/-- **C50**: every other text is an error. -/
theorem C50_node_rejected {s : Str} : Node.parse s = .err ↔ ∀ d, ¬ NodeInput d s := by
  constructor
  · intro h d hd
    obtain ⟨n, h1, _⟩ := nodeParse_iff.mpr hd
    rw [h] at h1; cases h1
  · intro h
    rcases (C06_ok_or_err s).2.1 with ⟨n, hn⟩ | h1
    · exact absurd (nodeParse_iff.mp ⟨n, hn, rfl⟩) (h _)
    · exact h1

/-- **C50**: `KdlEntry::parse` accepts exactly the texts of single entries. -/
theorem C50_entry {s : Str} {d : SEntry Value} : (∃ e, Entry.parse s = .ok e ∧ semEntry id e = d) ↔ EntryInput d s :=
  entryParse_iff

/-- **C50**: every other text is an error. -/
theorem C50_entry_rejected {s : Str} : Entry.parse s = .err ↔ ∀ d, ¬ EntryInput d s := by
  constructor
  · intro h d hd
    obtain ⟨e, h1, _⟩ := entryParse_iff.mpr hd
    rw [h] at h1; cases h1
  · intro h
    rcases (C06_ok_or_err s).2.2.1 with ⟨e, he⟩ | h1
    · exact absurd (entryParse_iff.mp ⟨e, he, rfl⟩) (h _)
    · exact h1

/-- **C50**: `KdlIdentifier::parse` accepts exactly the texts of strings. -/
theorem C50_identifier {s v : Str} : (∃ i, Ident.parse s = .ok i ∧ i.value = v) ↔ StrText s v := identParse_text

/-- **C50**: a byte order mark in front of a document changes nothing. -/
theorem C50_bom {s : Str} {ds : List (SNode Value)} (h : Gives s ds) (hs : ∀ q, s ≠ Char.ofNat 0xFEFF :: q) :
    Gives (Char.ofNat 0xFEFF :: s) ds := by
  obtain ⟨t, rfl | rfl, ht⟩ := C50_document.mp h
  · exact C50_document.mpr ⟨s, Or.inr rfl, ht⟩
  · exact absurd rfl (hs t)

/-! ### C51 -/

omit [FloatIO] in
/-- Semicolons and newline characters. -/
def isSeparator (c : Char) : Bool := decide (c = ';' ∨ Newline c)

omit [FloatIO] in
theorem isSeparator_newline {c : Char} (h : Newline c) : isSeparator c = true := by
  simp [isSeparator, h]

omit [FloatIO] in
theorem termText_separator {m x : Str} (h : TermText m x) (hx : x ≠ []) : 1 ≤ (m.filter isSeparator).length := by
  have mem : ∀ c ∈ m, isSeparator c = true → 1 ≤ (m.filter isSeparator).length := by
    intro c hc h1
    exact List.length_pos_iff.mpr (List.ne_nil_of_mem (List.mem_filter.mpr ⟨hc, h1⟩))
  rcases h with rfl | h | h
  · exact mem ';' (by simp) (by decide)
  · obtain ⟨c, q, rfl, hc⟩ := h.head
    exact mem c (by simp) (isSeparator_newline hc)
  · obtain ⟨b, nl, rfl, _, h | ⟨_, h⟩⟩ := h
    · obtain ⟨c, q, rfl, hc⟩ := h.head
      exact mem c (by simp) (isSeparator_newline hc)
    · exact absurd h hx

theorem items_separated {c : Cat} {r t : Str} (h : Text c r t) : ∀ ds, c = .items ds → ds.length ≤ (t.filter isSeparator).length + 1 := by
  induction h with
  | last _ _ => rintro ds ⟨⟩; simp
  | lastTerm _ _ _ _ _ => rintro ds ⟨⟩; simp
  | lastSlash _ _ _ _ => rintro ds ⟨⟩; simp
  | @cons k r B m L T d ds hB hm hL hT ih1 ih2 ih3 =>
    rintro _ ⟨⟩
    have h1 := ih3 _ rfl
    have hne : L ++ (T ++ r) ≠ [] := by
      obtain ⟨c, q, rfl, _⟩ := (hT.reads).1
      simp
    have h2 := termText_separator hm hne
    simp only [List.length_cons, List.filter_append, List.length_append]
    omega
  | _ => rintro ds ⟨⟩

/-- **C51**: a document of `n` nodes, not counting slashdashed ones, contains at least
`n - 1` semicolons or newlines. -/
theorem C51_separated {s : Str} {d : Document} (h : Document.parse s = .ok d) :
    d.nodes.length ≤ (s.filter isSeparator).length + 1 := by
  obtain ⟨t, ht, h1⟩ := C50_document.mp ⟨d, h, rfl⟩
  have key : (semDoc id d).length ≤ (t.filter isSeparator).length + 1 := by
    generalize semDoc id d = ds at h1
    have h1 : Text (.nodes ds) [] t := h1
    cases h1 with
    | empty => simp
    | items hL hT =>
      have := items_separated hT _ rfl
      simp only [List.filter_append, List.length_append]
      omega
  have e : (semDoc id d).length = d.nodes.length := by
    cases d with
    | mk ns f sp =>
      simp only [semDoc, Document.nodes]
      clear h h1 key
      induction ns with
      | nil => rfl
      | cons n ns ih => simp [semNodes, ih]
  rw [e] at key
  rcases ht with rfl | rfl
  · exact key
  · simp only [List.filter_cons]
    split <;> simp <;> omega

/-! ### Concrete cases -/

omit [FloatIO] in
/-- A view of the result of a parse. -/
def ParseResult.view {α β : Type} (f : α → β) : ParseResult α → Option β
  | .ok a => some (f a)
  | _ => none

omit [FloatIO] in
theorem ParseResult.view_ok {α β : Type} {f : α → β} {r : ParseResult α} {b : β} (h : r.view f = some b) :
    ∃ a, r = .ok a ∧ f a = b := by
  cases r with
  | ok a => exact ⟨a, rfl, Option.some.inj h⟩
  | err => cases h
  | panic => cases h

/-- A document with an annotation, a property, a slashdashed entry, a block and a comment
is in the grammar. -/
theorem C50_document_example : DocumentInput
    [.mk (some ['t']) ['n'] [⟨none, none, .bool true⟩, ⟨none, some ['k'], .null⟩] (some [.mk none ['c'] [] none])]
    "(t)n /-x #true k=#null { c; } // end".toList :=
  C50_document.mp (gives_iff.mpr (by krfl))

/-- The error of an unclosed block: no data fit the text. -/
theorem C50_rejected_example (ds : List (SNode Value)) : ¬ DocumentInput ds "n { c".toList :=
  C50_document_rejected.mp (by krfl) ds

theorem C50_node_example : NodeInput (.mk none ['n'] [⟨none, none, .bool false⟩] none) "/-x\n n #false; // c".toList :=
  C50_node.mp (ParseResult.view_ok (by krfl))

theorem C50_entry_example : EntryInput ⟨some ['t'], some ['k'], .null⟩ " /-1 k=(t)#null\n".toList :=
  C50_entry.mp (ParseResult.view_ok (by krfl))

/-- Where the accepted language differs from the published grammar of KDL 2: after a
children block or a keyword no terminator is needed if one of the two nodes is
slashdashed, but one is needed if neither is. -/
theorem C50_quirks : Gives "a {}/-b".toList [.mk none ['a'] [] (some [])] ∧
    Gives "/-a {}b".toList [.mk none ['b'] [] none] ∧
    Gives "/-a #trueb".toList [.mk none ['b'] [] none] ∧
    Document.parse "a {}b".toList = .err ∧ Document.parse "a #trueb".toList = .err ∧
    Document.parse ";".toList = .err ∧ Document.parse "a {}/-b\nc".toList = .err :=
  ⟨gives_iff.mpr (by krfl), gives_iff.mpr (by krfl), gives_iff.mpr (by krfl), by krfl, by krfl, by krfl, by krfl⟩

/-- Three quotes in a raw string need no line break behind them: they are one quote that opens the
string and two that belong to it. The quoted string of this form is an error. -/
theorem C50_raw_quirk : Gives "a #\"\"\"b c\"\"\"#".toList
      [.mk none ['a'] [⟨none, none, .string "\"\"b c\"\"".toList⟩] none] ∧
    Document.parse "a \"\"\"b c\"\"\"".toList = .err :=
  ⟨gives_iff.mpr (by krfl), by krfl⟩

/-- A document for which the bound of C51 is reached. -/
theorem C51_example : ∃ d, Document.parse "a;b\nc".toList = .ok d ∧ d.nodes.length = 3 ∧
    ("a;b\nc".toList.filter isSeparator).length = 2 :=
  have ⟨d, h1, h2⟩ := ParseResult.view_ok (r := Document.parse "a;b\nc".toList) (f := fun d => d.nodes.length) (b := 3) (by krfl)
  ⟨d, h1, h2, by decide⟩

end

end Kdl
