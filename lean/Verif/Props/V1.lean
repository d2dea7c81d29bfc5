import Verif.Lemmas.V1Exact
import Verif.Lemmas.V1Doc
import Verif.Lemmas.V1Back
import Verif.Props.Snug
import Verif.Props.Parse
import Verif.Props.Exact
import Verif.Props.Format
import Verif.Props.V2
import Verif.Props.Slashdash
import Verif.Props.Reprint
/-
The optional features `v1` and `v1-fallback`: C68 to C71. The functions of the older crate
are parameters, see `V1Lib`.
-/

namespace Kdl
open Spec

/-! ### C68 -/

section
variable [FloatIO]

/-- **C68.** If the printed text of a parsed document is accepted at all, it has the same
data. -/
theorem C68_accepted_same_data {s : Str} {d d2 : Document} (h : Document.parse s = .ok d) (h2 : Document.parse d.display = .ok d2) :
    semDoc id d2 = semDoc id d := C11_accepted h h2

/-- A text that is not printed as it was but is accepted again. -/
theorem C68_example : ∃ d d2, Document.parse "(t) a 1 { b; }; c".toList = .ok d ∧ d.display ≠ "(t) a 1 { b; }; c".toList ∧
    Document.parse d.display = .ok d2 := by
  obtain ⟨d, h1, h2⟩ := reprint_some (s := "(t) a 1 { b; }; c".toList) (t := "(t)a 1 { b; }; c".toList) (by krfl)
  obtain ⟨d2, h3, _⟩ := reprint_some (s := "(t)a 1 { b; }; c".toList) (t := "(t)a 1 { b; }; c".toList) (by krfl)
  exact ⟨d, d2, h1, by rw [h2]; decide, by rw [h2]; exact h3⟩

end

/-! ### C69 -/

section
variable [V1Lib] [FloatIO]

/-- **C69**, documents: with the feature `v1-fallback`, a text that is accepted as v2 gives
exactly the v2 document; otherwise a text that is accepted as v1 gives the converted v1
document, with the data of v1; a text is rejected exactly if both reject it, and then the
diagnostics are those of v1 exactly if the text looks like v1. -/
theorem C69_document (s : Str) :
    (∀ d, Document.parse s = .ok d → Document.parseFallback s = .ok d) ∧
    (∀ x, Document.parse s = .err → V1Lib.parseDocument s = some x →
      ∃ d, Document.parseFallback s = .ok d ∧ V1Data x (semDoc id d)) ∧
    (Document.parse s = .err → V1Lib.parseDocument s = none →
      (LooksV1 s → Document.parseFallback s = .errV1) ∧ (¬ LooksV1 s → Document.parseFallback s = .errV2)) ∧
    ((∀ d, Document.parseFallback s ≠ .ok d) ↔ Document.parse s = .err ∧ V1Lib.parseDocument s = none) ∧
    Document.parseFallback s ≠ .panic := by
  have h := (C06_ok_or_err s).1
  refine ⟨fun d h => by simp [Document.parseFallback, h], fun x h hx => ?_, fun h hx => ?_, ?_, ?_⟩
  · exact ⟨Document.ofV1 x, by simp [Document.parseFallback, h, Document.parseV1, hx], Document.ofV1_data x⟩
  · have : Document.parseFallback s = if detectV1 s then .errV1 else .errV2 := by
      simp [Document.parseFallback, h, Document.parseV1, hx]
    rw [this]
    refine ⟨fun hl => if_pos (detectV1_iff.mpr hl), fun hl => if_neg fun hd => hl (detectV1_iff.mp hd)⟩
  · rcases h with ⟨d, h⟩ | h
    · exact ⟨fun hd => absurd (by simp [Document.parseFallback, h]) (hd d), fun hd => by simp [h] at hd⟩
    · cases hx : V1Lib.parseDocument s with
      | none =>
        simp only [Document.parseFallback, h, Document.parseV1, hx, Option.map_none, and_self, iff_true]
        intro d
        split <;> simp
      | some x =>
        refine ⟨fun hd => absurd ?_ (hd (Document.ofV1 x)), fun hd => by simp at hd⟩
        simp [Document.parseFallback, h, Document.parseV1, hx]
  · rcases h with ⟨d, h⟩ | h
    · simp [Document.parseFallback, h]
    · simp only [Document.parseFallback, h]
      split
      · simp
      · split <;> simp

theorem orV1_spec {α : Type} {r : ParseResult α} (h : (∃ a, r = .ok a) ∨ r = .err) (o : Option α) :
    (∀ a, r = .ok a → orV1 r o = .ok a) ∧ (∀ a, r = .err → o = some a → orV1 r o = .ok a) ∧
    (r = .err → o = none → orV1 r o = .errV2) ∧ ((∀ a, orV1 r o ≠ .ok a) ↔ r = .err ∧ o = none) := by
  rcases h with ⟨a, rfl⟩ | rfl
  · refine ⟨?_, ?_, ?_, ?_⟩
    · rintro b ⟨⟩; rfl
    · rintro b ⟨⟩
    · rintro ⟨⟩
    · exact ⟨fun h => absurd rfl (h a), fun h => by cases h.1⟩
  · refine ⟨?_, ?_, ?_, ?_⟩
    · rintro b ⟨⟩
    · rintro b _ rfl; rfl
    · rintro _ rfl; rfl
    · cases o with
      | none => exact ⟨fun _ => ⟨rfl, rfl⟩, fun _ a h => by cases h⟩
      | some b => exact ⟨fun h => absurd rfl (h b), fun h => by cases h.2⟩

/-- **C69**, nodes: the same, and the diagnostics are those of v2. -/
theorem C69_node (s : Str) :
    (∀ n, Node.parse s = .ok n → Node.parseFallback s = .ok n) ∧
    (∀ x, Node.parse s = .err → V1Lib.parseNode s = some x → ∃ n, Node.parseFallback s = .ok n ∧ V1DataNode x (semNode id n)) ∧
    (Node.parse s = .err → V1Lib.parseNode s = none → Node.parseFallback s = .errV2) ∧
    ((∀ n, Node.parseFallback s ≠ .ok n) ↔ Node.parse s = .err ∧ V1Lib.parseNode s = none) := by
  obtain ⟨h1, h2, h3, h4⟩ := orV1_spec (C06_ok_or_err s).2.1 (Node.parseV1 s)
  refine ⟨h1, fun x h hx => ⟨_, h2 _ h (by rw [Node.parseV1, hx]; rfl), Node.ofV1_data x⟩, fun h hx => h3 h (by rw [Node.parseV1, hx]; rfl), ?_⟩
  rw [Node.parseFallback, h4, Node.parseV1, Option.map_eq_none_iff]

/-- **C69**, entries. -/
theorem C69_entry (s : Str) :
    (∀ e, Entry.parse s = .ok e → Entry.parseFallback s = .ok e) ∧
    (∀ x, Entry.parse s = .err → V1Lib.parseEntry s = some x → ∃ e, Entry.parseFallback s = .ok e ∧ V1DataEntry x (semEntry id e)) ∧
    (Entry.parse s = .err → V1Lib.parseEntry s = none → Entry.parseFallback s = .errV2) ∧
    ((∀ e, Entry.parseFallback s ≠ .ok e) ↔ Entry.parse s = .err ∧ V1Lib.parseEntry s = none) := by
  obtain ⟨h1, h2, h3, h4⟩ := orV1_spec (C06_ok_or_err s).2.2.1 (Entry.parseV1 s)
  refine ⟨h1, fun x h hx => ⟨_, h2 _ h (by rw [Entry.parseV1, hx]; rfl), Entry.ofV1_data x⟩, fun h hx => h3 h (by rw [Entry.parseV1, hx]; rfl), ?_⟩
  rw [Entry.parseFallback, h4, Entry.parseV1, Option.map_eq_none_iff]

/-- **C69**, identifiers. -/
theorem C69_ident (s : Str) :
    (∀ i, Ident.parse s = .ok i → Ident.parseFallback s = .ok i) ∧
    (∀ x, Ident.parse s = .err → V1Lib.parseIdent s = some x → ∃ i, Ident.parseFallback s = .ok i ∧ i.value = x.value) ∧
    (Ident.parse s = .err → V1Lib.parseIdent s = none → Ident.parseFallback s = .errV2) ∧
    ((∀ i, Ident.parseFallback s ≠ .ok i) ↔ Ident.parse s = .err ∧ V1Lib.parseIdent s = none) := by
  obtain ⟨h1, h2, h3, h4⟩ := orV1_spec (C06_ok_or_err s).2.2.2 (Ident.parseV1 s)
  refine ⟨h1, fun x h hx => ⟨_, h2 _ h (by rw [Ident.parseV1, hx]; rfl), rfl⟩, fun h hx => h3 h (by rw [Ident.parseV1, hx]; rfl), ?_⟩
  rw [Ident.parseFallback, h4, Ident.parseV1, Option.map_eq_none_iff]

end

/-! ### C70 -/

section
variable [V1Lib]

/-- **C70**, data: a document read as v1 has the data that the v1 parser found, and no other
data fits it. -/
theorem C70_data {s : Str} {x : V1.Document} (h : V1Lib.parseDocument s = some x) :
    ∃ d, Document.parseV1 s = some d ∧ V1Data x (semDoc id d) ∧ ∀ ds, V1Data x ds → ds = semDoc id d :=
  ⟨_, by rw [Document.parseV1, h]; rfl, Document.ofV1_data x, fun _ hd => V1Data.unique hd (Document.ofV1_data x)⟩

/-- **C70**, data: nodes, entries and identifiers. -/
theorem C70_data_parts (s : Str) :
    (∀ x, V1Lib.parseNode s = some x → ∃ n, Node.parseV1 s = some n ∧ V1DataNode x (semNode id n)) ∧
    (∀ x, V1Lib.parseEntry s = some x → ∃ e, Entry.parseV1 s = some e ∧ V1DataEntry x (semEntry id e)) ∧
    (∀ x, V1Lib.parseIdent s = some x → ∃ i, Ident.parseV1 s = some i ∧ i.value = x.value) :=
  ⟨fun x h => ⟨_, by rw [Node.parseV1, h]; rfl, Node.ofV1_data x⟩, fun x h => ⟨_, by rw [Entry.parseV1, h]; rfl, Entry.ofV1_data x⟩,
    fun x h => ⟨_, by rw [Ident.parseV1, h]; rfl, rfl⟩⟩

variable [FloatIO]

/-- **C70**, data: bringing the document into v2 form keeps the data. -/
theorem C70_ensure {s : Str} {x : V1.Document} (h : V1Lib.parseDocument s = some x) :
    ∃ d, Document.parseV1 s = some d ∧ V1Data x (semDoc id d.ensureV2) :=
  ⟨_, by rw [Document.parseV1, h]; rfl, by rw [semDoc_ensureV2]; exact Document.ofV1_data x⟩

omit [V1Lib] in
/-- **C70**, strings, partial. Full statement: a v1 text of a string is converted to a v2
text of the same string. Missing: the texts that are not `V1Good`, see the violations. -/
theorem C70_string_partial {t w : Str} (h : V1Good t w) {e : Entry} {f : EntryFmt} (hv : e.value = .string w) (hf : e.format = some f)
    (ht : f.valueRepr = t) : V1Str t w ∧ ∃ f', e.ensureV2.format = some f' ∧ StrText f'.valueRepr w ∧ f' = { f with valueRepr := f'.valueRepr } := by
  refine ⟨V1Good.v1 h, _, by rw [Entry.ensureV2, hf], ?_, rfl⟩
  subst ht
  simp only [hv]
  exact v1_text h

omit [V1Lib] in
/-- **C70**, strings, decided: of the v1 texts of strings, exactly the `V1Good` ones are
converted to v2 texts of the same string. -/
theorem C70_string_exact {t w : Str} (h : V1Str t w) {e : Entry} {f : EntryFmt} (hv : e.value = .string w) (hf : e.format = some f)
    (ht : f.valueRepr = t) : ∃ f', e.ensureV2.format = some f' ∧ (StrText f'.valueRepr w ↔ V1Good t w) := by
  refine ⟨_, by rw [Entry.ensureV2, hf], ?_⟩
  subst ht
  simp only [hv]
  exact ⟨v1_text_good h, v1_text⟩

omit [V1Lib] [FloatIO] in
/-- The raw string `r"a\b"` is a v1 string that does not survive. -/
theorem C70_string_example : V1Str "r\"a\\b\"".toList "a\\b".toList ∧ ¬ V1Good "r\"a\\b\"".toList "a\\b".toList := by
  constructor
  · refine V1Str.raw (n := 0) (t := "a\\b".toList) ?_
    rintro ⟨a, b, e⟩
    have : '"' ∈ "a\\b".toList := by rw [e]; simp [hashes]
    exact absurd this (by decide)
  · intro h
    have hs := v1_text h
    have e : v2StringRepr "a\\b".toList "r\"a\\b\"".toList = '"' :: ("a\\b".toList ++ ['"']) := by decide
    rw [e] at hs
    have hq := (quoted_length (strText_quote hs (by decide))).2 rfl
    exact (hq.2 '\\' (by decide)).1 rfl

/-- **C70**, documents, partial. Full statement: `v1_to_v2` turns every v1 text into a v2
text with the same data. Missing: the documents that do not satisfy `V1Doc`, see the
violations. -/
theorem C70_document_partial {s : Str} {x : V1.Document} {ds : List (SNode Value)} (h : V1Lib.parseDocument s = some x) (hx : V1Doc [] x)
    (hd : V1Data x ds) : ∃ t, v1ToV2 s = some t ∧ Gives t ds := by
  refine ⟨(Document.ofV1 x).ensureV2.display, by rw [v1ToV2, Document.parseV1, h]; rfl, ?_⟩
  rw [V1Data.unique hd (Document.ofV1_data x)]
  refine C50_document.mpr ?_
  exact ⟨_, Or.inl rfl, (doc_v1 hx 0).2 [] (Or.inl rfl)⟩

/-- `v1_to_v2` rejects exactly what the v1 parser rejects. -/
theorem C70_rejects (s : Str) : v1ToV2 s = none ↔ V1Lib.parseDocument s = none := by
  rw [v1ToV2, Document.parseV1, Option.map_map, Option.map_eq_none_iff]

end

/-! #### Concrete cases

The trees below are what the v1 grammar gives for the quoted texts, with all texts in the
places where the accessors of the older crate return them. -/

/-- An argument with its text and the text in front of it. -/
def v1Arg (lead : String) (v : V1.Value) (t : String) : V1.Entry :=
  ⟨none, v, none, some t.toList, some lead.toList, none, .zero⟩

/-- A name with its text. -/
def v1Id (n : String) : V1.Ident := ⟨n.toList, some n.toList, .zero⟩

/-- A node without children. -/
def v1Leaf (lead n : String) (es : List V1.Entry) (trail : String) : V1.Node :=
  .mk none (v1Id n) es none (some lead.toList) none (some trail.toList) .zero

/-- A document. -/
def v1Tree (ns : List V1.Node) : V1.Document := .mk ns (some []) (some []) .zero

/-- The string `w` as an argument `t` of a node `a`: the data, if the text were converted
properly. -/
def v1One (t w : String) (raw : Bool) : V1.Document :=
  v1Tree [v1Leaf "" "a" [v1Arg " " (if raw then .rawString w.toList else .string w.toList) t] "\n"]

/-- Data of a node `a` with the string `w`. -/
def aWith (w : String) : List (SNode Value) := [.mk none ['a'] [⟨none, none, .string w.toList⟩] none]

theorem v1One_data (t w : String) (raw : Bool) : V1Data (v1One t w raw) (aWith w) := by
  have := Document.ofV1_data (v1One t w raw)
  cases raw <;> exact this

/-- A v1 document with an annotation, a keyword, a property, a raw string, comments, and
children: `a 1 true /*;*/ k="x\/y" {` … `(t)b r#"c"d"#; // e` … `}` … `f null`. -/
def v1Sample : V1.Document :=
  v1Tree [.mk none (v1Id "a")
      [v1Arg " " (.base10 ⟨1, by decide⟩) "1", v1Arg " " (.bool true) "true",
       ⟨none, .string "x/y".toList, some (v1Id "k"), some "\"x\\/y\"".toList, some " /*;*/ ".toList, none, .zero⟩]
      (some (.mk [.mk (some (v1Id "t")) (v1Id "b") [v1Arg " " (.rawString "c\"d".toList) "r#\"c\"d\"#"] none (some "\n  ".toList)
        none (some ";".toList) .zero] (some []) (some " // e\n".toList) .zero))
      (some "// z\n".toList) (some [' ']) (some "\n".toList) .zero,
    v1Leaf "" "f" [v1Arg " " .null "null"] " \r\n"]

section
variable [FloatIO]

theorem writable_head {w : Str} (h0 : ∀ c ∈ w, CleanChar c) (h1 : (w.head? == some '+') = false) (h2 : (w.head? == some '-') = false) :
    Writable w := ⟨h0, signedPoint_head h1 h2⟩

/-- The sample meets the hypothesis of `C70_document_partial`. -/
theorem C70_example : V1Doc [] v1Sample := by
  have sp : ∀ r : Str, NSpace r [' '] := fun r => .space (by decide) .nil
  have e1 : V1Entry (v1Arg " " (.base10 ⟨1, by decide⟩) "1") := by
    refine ⟨⟨[' '], rfl, sp _, by simp⟩, rfl, by rintro i ⟨⟩, by rintro i ⟨⟩, Or.inr (Or.inl ⟨['1'], .integer ⟨1, by decide⟩, rfl, .base10 _ _ rfl, ?_⟩)⟩
    exact .int ⟨[], 1, [], 10, '1', [], .none, .dec, ⟨1, by decide, by decide⟩, by simp, rfl, by decide⟩ (by decide)
  have e2 : V1Entry (v1Arg " " (.bool true) "true") :=
    ⟨⟨[' '], rfl, sp _, by simp⟩, rfl, by rintro i ⟨⟩, by rintro i ⟨⟩, Or.inr (Or.inr (Or.inl ⟨true, rfl⟩))⟩
  have e3 : V1Entry ⟨none, .string "x/y".toList, some (v1Id "k"), some "\"x\\/y\"".toList, some " /*;*/ ".toList, none, .zero⟩ := by
    refine ⟨⟨" /*;*/ ".toList, rfl, .space (by decide) (.comment (a := [';']) (.char (by decide) (by decide) .nil) (sp _)), by decide⟩, rfl,
      by rintro i ⟨⟩, ?_, Or.inl ⟨_, "x/y".toList, rfl, .string _, ?_⟩⟩
    · rintro i ⟨⟩
      exact ⟨_, rfl, strText_of (by krfl)⟩
    · refine .quoted (t := "x\\/y".toList) ?_ (by decide) (signedPoint_head (by decide) (by decide))
      refine .plain (by decide) (by decide) (by decide) (by decide) (.escape (by decide) (by intro h; cases h) ?_)
      exact .plain (by decide) (by decide) (by decide) (by decide) .nil
  have e4 : V1Entry (v1Arg " " (.rawString "c\"d".toList) "r#\"c\"d\"#") := by
    refine ⟨⟨[' '], rfl, sp _, by simp⟩, rfl, by rintro i ⟨⟩, by rintro i ⟨⟩, Or.inl ⟨_, "c\"d".toList, rfl, .raw _, ?_⟩⟩
    refine .raw (n := 0) (w := "c\"d".toList) ⟨by decide, ?_, by decide⟩ (by decide) (signedPoint_head (by decide) (by decide))
    rw [← contains_iff]
    decide
  have e5 : V1Entry (v1Arg " " .null "null") :=
    ⟨⟨[' '], rfl, sp _, by simp⟩, rfl, by rintro i ⟨⟩, by rintro i ⟨⟩, Or.inr (Or.inr (Or.inr rfl))⟩
  have hl : ∀ x, NewlineSeq ['\n'] x := lf_seq
  have wr : ∀ (n : String), (∀ c ∈ n.toList, CleanChar c) → (n.toList.head? == some '+') = false → (n.toList.head? == some '-') = false →
      Writable (v1Id n).value := fun n h0 h1 h2 => writable_head h0 h1 h2
  refine .mk (.cons (u := []) (.line (m := "// z\n".toList) ⟨" z".toList, ['\n'], rfl, by decide, Or.inl (hl _)⟩ .nil) (.block ?_ ?_ ?_ (sp _) ?_)
    (.line (w := []) ⟨.nil, by simp⟩ (hl _)) (.cons (u := [' ']) .nil (.leaf ?_ ?_ ?_) (.line (w := [' ']) ⟨.space (by decide) .nil, by decide⟩ (Or.inl rfl))
      (.nil (.space (by decide) .nil))))
  · rintro i ⟨⟩
  · exact wr "a" (by decide) (by decide) (by decide)
  · intro e he
    simp only [List.mem_cons, List.not_mem_nil, or_false] at he
    rcases he with rfl | rfl | rfl
    · exact e1
    · exact e2
    · exact e3
  · refine .mk (.cons (u := []) (.newline (m := ['\n']) (hl _) (.space (by decide) (.space (by decide) .nil))) (.leaf ?_ ?_ ?_)
      (.semi (w := []) (x := []) (by simp) (by simp)) (.nil (.space (by decide) (.line (m := "// e\n".toList) (t := [])
        ⟨" e".toList, ['\n'], rfl, by decide, Or.inl (hl _)⟩ .nil))))
    · rintro i ⟨⟩
      exact wr "t" (by decide) (by decide) (by decide)
    · exact wr "b" (by decide) (by decide) (by decide)
    · intro e he
      rcases List.mem_singleton.mp he with rfl
      exact e4
  · rintro i ⟨⟩
  · exact wr "f" (by decide) (by decide) (by decide)
  · intro e he
    rcases List.mem_singleton.mp he with rfl
    exact e5

/-- The three cases of C69: accepted as v2; rejected as v2 and converted from v1 if the v1
parser accepts it; rejected by both, with the diagnostics of v1 or of v2. -/
theorem C69_example :
    (∃ d, Document.parse "a #true\n".toList = .ok d) ∧
    (∀ L : V1Lib, L.parseDocument "a true\n".toList = some (v1Tree [v1Leaf "" "a" [v1Arg " " (.bool true) "true"] "\n"]) →
      ∃ d, @Document.parseFallback L _ "a true\n".toList = .ok d ∧ semDoc id d = [.mk none ['a'] [⟨none, none, .bool true⟩] none]) ∧
    (∀ L : V1Lib, L.parseDocument "a true }".toList = none → @Document.parseFallback L _ "a true }".toList = .errV1) ∧
    (∀ L : V1Lib, L.parseDocument "a #true }".toList = none → @Document.parseFallback L _ "a #true }".toList = .errV2) := by
  refine ⟨?_, fun L h => ?_, fun L h => ?_, fun L h => ?_⟩
  · obtain ⟨d, h, _⟩ : Gives "a #true\n".toList [.mk none ['a'] [⟨none, none, .bool true⟩] none] := gives_iff.mpr (by krfl)
    exact ⟨d, h⟩
  · obtain ⟨d, h1, h2⟩ := (@C69_document L _ "a true\n".toList).2.1 _ (by krfl) h
    exact ⟨d, h1, V1Data.unique h2 (Document.ofV1_data _)⟩
  · exact ((@C69_document L _ "a true }".toList).2.2.1 (by krfl) h).1 (detectV1_iff.mp (by decide))
  · exact ((@C69_document L _ "a #true }".toList).2.2.1 (by krfl) h).2 (fun hl => absurd (detectV1_iff.mpr hl) (by decide))

/-! #### Violations -/

/-- Whatever the v1 parser is like otherwise: where it finds `x`, `v1_to_v2` gives `t`. -/
def V2Text (x : V1.Document) (t : Str) : Prop := ∀ (L : V1Lib) (s : Str), L.parseDocument s = some x → @v1ToV2 L _ s = some t

theorem v2Text_of {x : V1.Document} {t : Str} (h : (Document.ofV1 x).ensureV2.display = t) : V2Text x t := by
  intro L s hs
  unfold v1ToV2 Document.parseV1
  rw [hs, ← h]
  rfl

/-- **C70 violated**, a node is lost: `a // c`, newline, `b`. The line break after the
comment is moved in front of it, and the comment swallows the next node. -/
theorem C70_violated_comment :
    V1Data (v1Tree [v1Leaf "" "a" [] " // c\n", v1Leaf "" "b" [] "\n"]) [.mk none ['a'] [] none, .mk none ['b'] [] none] ∧
    V2Text (v1Tree [v1Leaf "" "a" [] " // c\n", v1Leaf "" "b" [] "\n"]) "a\n // cb\n".toList ∧
    Gives "a\n // cb\n".toList [.mk none ['a'] [] none] :=
  ⟨Document.ofV1_data _, v2Text_of (by krfl), gives_iff.mpr (by krfl)⟩

/-- **C70 violated**, strings are changed: the backslash of a raw string starts an escape; a
line of white space becomes an empty line; CRLF becomes LF; an empty string vanishes. -/
theorem C70_violated_changed :
    (V1Str "r\"C:\\n\"".toList "C:\\n".toList ∧ V2Text (v1One "r\"C:\\n\"" "C:\\n" true) "a \"C:\\n\"\n".toList ∧
      Gives "a \"C:\\n\"\n".toList (aWith "C:\n")) ∧
    (V1Str "\"a\n \nb\"".toList "a\n \nb".toList ∧ V2Text (v1One "\"a\n \nb\"" "a\n \nb" false) "a \"\"\"\na\n \nb\n\"\"\"\n".toList ∧
      Gives "a \"\"\"\na\n \nb\n\"\"\"\n".toList (aWith "a\n\nb")) ∧
    (V1Str "\"a\r\nb\"".toList "a\r\nb".toList ∧ V2Text (v1One "\"a\r\nb\"" "a\r\nb" false) "a \"\"\"\na\r\nb\n\"\"\"\n".toList ∧
      Gives "a \"\"\"\na\r\nb\n\"\"\"\n".toList (aWith "a\nb")) ∧
    (V1Str "\"\"".toList [] ∧ V2Text (v1One "\"\"" "" false) "a \n".toList ∧ Gives "a \n".toList [.mk none ['a'] [] none]) := by
  have q : ∀ t : Str, (∀ c ∈ t, c ≠ '\\' ∧ c ≠ '"') → V1Str ('"' :: (t ++ ['"'])) t := by
    intro t h
    refine .quoted ?_
    induction t with
    | nil => exact .nil
    | cons c t ih => exact .plain (h c (by simp)).1 (h c (by simp)).2 (ih fun c hc => h c (by simp [hc]))
  refine ⟨⟨?_, v2Text_of (by krfl), gives_iff.mpr (by krfl)⟩, ⟨q "a\n \nb".toList (by decide), v2Text_of (by krfl), gives_iff.mpr (by krfl)⟩,
    ⟨q "a\r\nb".toList (by decide), v2Text_of (by krfl), gives_iff.mpr (by krfl)⟩, ⟨q [] (by simp), v2Text_of (by krfl), gives_iff.mpr (by krfl)⟩⟩
  refine .raw (n := 0) (t := "C:\\n".toList) ?_
  rw [← contains_iff]
  decide

/-- **C70 violated**, the converted text is rejected: an escaped backslash in front of a
slash, an escaped slash in a string over two lines, three quotation marks in a raw string
over two lines, a slashdashed keyword, a raw string as a key. -/
theorem C70_violated_rejected :
    (V2Text (v1One "\"\\\\/ \"" "\\/ " false) "a \"\\/ \"\n".toList ∧ Document.parse "a \"\\/ \"\n".toList = .err) ∧
    (V2Text (v1One "\"a\\/\nb\"" "a/\nb" false) "a \"\"\"\na\\/\nb\n\"\"\"\n".toList ∧
      Document.parse "a \"\"\"\na\\/\nb\n\"\"\"\n".toList = .err) ∧
    (V2Text (v1One "r#\"a\n\"\"\"\"#" "a\n\"\"\"" true) "a #\"a\n\"\"\"\"#\n".toList ∧ Document.parse "a #\"a\n\"\"\"\"#\n".toList = .err) ∧
    (V2Text (v1Tree [v1Leaf "" "a" [v1Arg " /-true " .null "null"] "\n"]) "a /-true #null\n".toList ∧
      Document.parse "a /-true #null\n".toList = .err) ∧
    (V2Text (v1Tree [v1Leaf "" "a" [⟨none, .null, some ⟨['k', 'l'], some "r\"kl\"".toList, .zero⟩, some "null".toList, some [' '], none, .zero⟩] "\n"])
      "a r\"kl\"=#null\n".toList ∧ Document.parse "a r\"kl\"=#null\n".toList = .err) :=
  ⟨⟨v2Text_of (by krfl), by krfl⟩, ⟨v2Text_of (by krfl), by krfl⟩, ⟨v2Text_of (by krfl), by krfl⟩, ⟨v2Text_of (by krfl), by krfl⟩,
    ⟨v2Text_of (by krfl), by krfl⟩⟩

end

/-! ### C71 -/

section
variable [V1Lib]

/-- **C71**, data: `ensure_v1` keeps the data. -/
theorem C71_data [LawfulV1Lib] (d : Document) : semDoc id d.ensureV1 = semDoc id d := semDoc_ensureV1 d

variable [FloatIO]

omit [FloatIO] in
mutual
theorem nodeEntries_ensureV1 : ∀ n : Node, nodeEntries n.ensureV1 = (nodeEntries n).map Entry.ensureV1
  | .mk ty name es ch f sp => by
    simp only [Node.ensureV1, nodeEntries, List.map_append, optEntries_ensureV1 ch]
theorem optEntries_ensureV1 : ∀ d : Option Document, optEntries (ensureV1OptDoc d) = (optEntries d).map Entry.ensureV1
  | none => rfl
  | some d => docEntries_ensureV1 d
theorem docEntries_ensureV1 : ∀ d : Document, docEntries d.ensureV1 = (docEntries d).map Entry.ensureV1
  | .mk ns f sp => nodesEntries_ensureV1 none ns
theorem nodesEntries_ensureV1 : ∀ (p : Option Node) (ns : List Node),
    nodesEntries (ensureV1Nodes p ns) = (nodesEntries ns).map Entry.ensureV1
  | _, [] => rfl
  | p, n :: ns => by
    have h1 := nodeEntries_ensureV1 n
    have h2 := nodesEntries_ensureV1 (some n) ns
    have h3 : ∀ f, nodeEntries (n.ensureV1.setFormat f) = nodeEntries n.ensureV1 := by
      intro f; cases n; rfl
    cases ns with
    | nil => simp only [ensureV1Nodes, nodesEntries, List.map_append, h3, h1, List.map_nil]
    | cons m ms =>
      rw [show ensureV1Nodes p (n :: m :: ms) = n.ensureV1 :: ensureV1Nodes (some n) (m :: ms) from by
        rw [ensureV1Nodes.eq_def]]
      simp only [nodesEntries, List.map_append] at h2 ⊢
      rw [h1, h2]
end

omit [FloatIO] in
theorem ensureV1Nodes_append (n : Node) : ∀ (p : Option Node) (init : List Node), ensureV1Nodes p (init ++ [n]) =
    init.map Node.ensureV1 ++ [n.ensureV1.setFormat (ensureLastV1 (init.getLast?.or p) n).format]
  | p, [] => by simp only [List.nil_append, ensureV1Nodes, List.map_nil, List.getLast?_nil, Option.none_or]
  | p, [m] => by
    simp only [List.cons_append, List.nil_append, ensureV1Nodes, List.map_cons, List.map_nil, List.getLast?_singleton, Option.some_or]
  | p, m :: m' :: ms => by
    have ih := ensureV1Nodes_append n (some m) (m' :: ms)
    rw [show ensureV1Nodes p (m :: m' :: ms ++ [n]) = m.ensureV1 :: ensureV1Nodes (some m) (m' :: ms ++ [n]) from by
      simp only [List.cons_append]
      rw [ensureV1Nodes.eq_def], ih, List.getLast?_cons_cons]
    have : ((m' :: ms).getLast?.or (some m)) = (m' :: ms).getLast?.or p := by
      rw [List.getLast?_eq_some_getLast (List.cons_ne_nil _ _)]
      rfl
    rw [this]
    rfl

omit [FloatIO] in
/-- **C71**, layout: `ensure_v1` keeps the recorded layout of a document and of all its nodes but the last one. That one
gets a line break behind it and the indentation of the node in front if it has no layout; otherwise it keeps
it, but ends with a semicolon if the recorded text behind it has a line break and no semicolon. -/
theorem C71_layout (d : Document) {init : List Node} {n : Node} (h : d.nodes = init ++ [n]) :
    d.ensureV1.format = d.format ∧ (∀ m : Node, m.ensureV1.format = m.format) ∧
    ∃ n', d.ensureV1.nodes = init.map Node.ensureV1 ++ [n'] ∧ n' = n.ensureV1.setFormat n'.format ∧
      (n.format = none → n'.format = some { leading := ((init.getLast?.bind Node.format).map NodeFmt.leading).getD [], terminator := ['\n'] }) ∧
      ∀ f, n.format = some f →
        (';' ∉ f.trailing → (∃ c ∈ f.trailing, isNewlineChar c = true) → n'.format = some { f with terminator := [';'] }) ∧
        (';' ∈ f.trailing ∨ (∀ c ∈ f.trailing, isNewlineChar c = false) → n'.format = some f) := by
  have hfmt : ∀ (m : Node) f, (m.setFormat f).format = f := by rintro ⟨⟩ f; rfl
  refine ⟨by cases d; rfl, by rintro ⟨⟩; rfl, n.ensureV1.setFormat (ensureLastV1 (init.getLast?.or none) n).format, ?_, ?_, ?_, ?_⟩
  · cases d with
    | mk ns f sp =>
      obtain rfl : ns = init ++ [n] := h
      exact ensureV1Nodes_append n none init
  · rw [hfmt]
  · intro hn
    rw [hfmt]
    simp only [ensureLastV1, hn, hfmt, Option.or_none]
    rcases init.getLast? with _ | m
    · rfl
    · simp only [leadingOfNode, Option.bind_some]
      rcases m.format with _ | f <;> rfl
  · intro f hn
    rw [hfmt]
    simp only [ensureLastV1, hn]
    refine ⟨fun h1 h2 => ?_, fun h1 => ?_⟩
    · rw [if_pos (by simpa [h1] using h2), hfmt]
    · rw [if_neg, hn]
      rcases h1 with h1 | h1
      · simp [h1]
      · simp only [Bool.and_eq_true, List.any_eq_true, not_and, not_exists]
        intro _ c hc
        simp [h1 c hc]

omit [FloatIO] in
/-- A new node behind one that is indented by two spaces. -/
theorem C71_example_layout (a b : Ident) (sp : Span) : ∃ n' : Node,
    (Document.mk [.mk none a [] none (some { leading := "  ".toList, terminator := ['\n'] }) sp, .mk none b [] none none sp] none sp).ensureV1.nodes =
      [(Node.mk none a [] none (some { leading := "  ".toList, terminator := ['\n'] }) sp).ensureV1, n'] ∧
    n'.format = some { leading := "  ".toList, terminator := ['\n'] } := by
  obtain ⟨_, _, n', h1, _, h2, _⟩ := C71_layout
    (.mk [.mk none a [] none (some { leading := "  ".toList, terminator := ['\n'] }) sp, .mk none b [] none none sp] none sp)
    (init := [.mk none a [] none (some { leading := "  ".toList, terminator := ['\n'] }) sp]) rfl
  exact ⟨n', h1, h2 rfl⟩

/-- The recorded text of an entry is the v1 spelling of a keyword. -/
def Spec.V1Keyword (e : Entry) (v : Value) (t : Str) : Prop := e.value = v → ∃ f, e.format = some f ∧ f.valueRepr = t

/-- **C71**, texts: `v2_to_v1` succeeds exactly on the accepted texts, and gives the text of a
document with the data of the accepted one, whose keywords are recorded in the v1 spelling. -/
theorem C71_text [LawfulV1Lib] (s : Str) : (v2ToV1 s = none ↔ Document.parse s = .err) ∧
    ∀ ds, Gives s ds → ∃ d, v2ToV1 s = some d.display ∧ semDoc id d = ds ∧
      ∀ e ∈ docEntries d, V1Keyword e (.bool true) "true".toList ∧ V1Keyword e (.bool false) "false".toList ∧
        V1Keyword e .null "null".toList := by
  refine ⟨?_, ?_⟩
  · rcases (C06_ok_or_err s).1 with ⟨d, h⟩ | h <;> simp [v2ToV1, h]
  · rintro ds ⟨d, h, rfl⟩
    refine ⟨d.ensureV1, by rw [v2ToV1, h], semDoc_ensureV1 d, ?_⟩
    rw [docEntries_ensureV1]
    intro e he
    obtain ⟨e0, he0, rfl⟩ := List.mem_map.mp he
    obtain ⟨b, d0, _, h1, rfl⟩ := parse_run h
    have hm : e0 ∈ docEntries d0 := by cases d0; exact he0
    obtain ⟨s', r, _, h2⟩ := h1.entries e0 hm
    obtain ⟨f, hf, _⟩ := nodeEntry_keep h2
    have hv : e0.ensureV1.value = e0.value := by rw [Entry.ensureV1, hf]
    refine ⟨?_, ?_, ?_⟩ <;> (intro h'; rw [hv] at h'; exact ⟨_, by rw [Entry.ensureV1, hf], by simp [h']⟩)

/-- **C71**, strings, exactly: an entry whose recorded text is a v2 text of a string gets a
v1 text of the same string if and only if the text is on one line, without `\s` and without
escaped white space, and is not an unquoted `-inf`. -/
theorem C71_string_exact {e : Entry} {f : EntryFmt} {w : Str} (hv : e.value = .string w) (hf : e.format = some f) (ht : StrText f.valueRepr w) :
    (∃ f', e.ensureV1.format = some f' ∧ V1Str f'.valueRepr w) ↔ V2Ready f.valueRepr w := by
  rw [← v1Repr_iff ht]
  have : e.ensureV1.format = some { f with valueRepr := v1StringRepr w f.valueRepr } := by
    rw [Entry.ensureV1, hf]
    simp only [hv]
  rw [this]
  constructor
  · rintro ⟨f', e', h⟩
    cases e'
    exact h
  · exact fun h => ⟨_, rfl, h⟩

/-- **C71**, keywords and numbers: keywords are written without the hash sign, the recorded
text of numbers is kept, and so is all recorded space. -/
theorem C71_entry {e : Entry} {f : EntryFmt} (hf : e.format = some f) : ∃ f', e.ensureV1.format = some f' ∧
    f' = { f with valueRepr := f'.valueRepr } ∧ (e.value = .bool true → f'.valueRepr = "true".toList) ∧
    (e.value = .bool false → f'.valueRepr = "false".toList) ∧ (e.value = .null → f'.valueRepr = "null".toList) ∧
    (∀ i, e.value = .integer i → f'.valueRepr = f.valueRepr) ∧ (∀ x, e.value = .float x → f'.valueRepr = f.valueRepr) := by
  refine ⟨_, by rw [Entry.ensureV1, hf], rfl, ?_, ?_, ?_, ?_, ?_⟩
  · intro h; simp [h]
  · intro h; simp [h]
  · intro h; simp [h]
  · intro i h; simp [h]
  · intro i h; simp [h]

end

section
variable [FloatIO]

/-- A stand-in for the older crate: it rejects all texts, makes identifiers without text,
and writes values as v2 does. -/
@[reducible] def v1Stub : V1Lib :=
  ⟨fun _ => none, fun _ => none, fun _ => none, fun _ => none, fun s => ⟨s, none, .zero⟩, fun v => (Value.ofV1 v).display⟩

theorem v1Stub_lawful : @LawfulV1Lib v1Stub := @LawfulV1Lib.mk v1Stub fun _ => rfl

/-- Texts that meet `V2Ready`, and what becomes of them. -/
theorem C71_example : V2Ready "\"a/\\\\/b\\u{41}\"".toList "a/\\/bA".toList ∧ V2Ready "#\"\\ \"#".toList "\\ ".toList ∧ V2Ready "x".toList "x".toList ∧
    @v2ToV1 v1Stub _ "a \"a/\\\\/b\\u{41}\" #\"\\ \"# x k=#true\n".toList =
      some "a \"a\\/\\\\/b\\u{41}\" r#\"\\ \"# \"x\" k=true\n".toList := by
  refine ⟨?_, ?_, ?_, by krfl⟩
  · refine .quoted (t := "a/\\\\/b\\u{41}".toList) ?_
    refine .plain (by decide) (by decide) (by decide) (by decide) (.plain (by decide) (by decide) (by decide) (by decide) (.escape (by decide) (by decide) ?_))
    refine .plain (by decide) (by decide) (by decide) (by decide) (.plain (by decide) (by decide) (by decide) (by decide) ?_)
    refine .unicode (hx := ['4', '1']) (by simp) (by simp) ?_ (by decide) .nil
    have : ∀ x ∈ ['4', '1'], isHexDigit x = true := by decide
    exact fun x hx => isDigit_iff.2.1.mpr (this x hx)
  · refine .raw (n := 0) (w := "\\ ".toList) ⟨by decide, ?_, by decide⟩
    rw [← contains_iff]
    decide
  · exact .bare ((isPlainIdent_bare (by decide) (by decide)).resolve_right fun h => signedPoint_head (by decide) (by decide) h.2) (by decide)

/-- **C71 violated**, the text is not v1, or is another v1 string: a string over two lines
keeps its three quotation marks; as a raw string it becomes a v1 string with two quotation
marks at both ends; `\s` is kept; a key is not converted; the last node of a block gets no
terminator. -/
theorem C71_violated_text :
    (@v2ToV1 v1Stub _ "a \"\"\"\nx\n\"\"\"\n".toList = some "a \"\"\"\nx\n\"\"\"\n".toList ∧ ∀ w, ¬ V1Str "\"\"\"\nx\n\"\"\"".toList w) ∧
    (@v2ToV1 v1Stub _ "a #\"\"\"\nx\n\"\"\"#\n".toList = some "a r#\"\"\"\nx\n\"\"\"#\n".toList ∧
      Gives "a #\"\"\"\nx\n\"\"\"#\n".toList (aWith "x") ∧ V1Str "r#\"\"\"\nx\n\"\"\"#".toList "\"\"\nx\n\"\"".toList) ∧
    (@v2ToV1 v1Stub _ "a \"x\\sy\"\n".toList = some "a \"x\\sy\"\n".toList ∧ ∀ w, ¬ V1Str "\"x\\sy\"".toList w) ∧
    @v2ToV1 v1Stub _ "a #\"k l\"#=1\n".toList = some "a #\"k l\"#=1\n".toList ∧
    @v2ToV1 v1Stub _ "a { b }\n".toList = some "a { b }\n".toList := by
  refine ⟨⟨by krfl, fun w => noV1_three⟩, ⟨by krfl, gives_iff.mpr (by krfl), ?_⟩, ⟨by krfl, ?_⟩, by krfl, by krfl⟩
  · refine .raw (n := 1) (t := "\"\"\nx\n\"\"".toList) ?_
    rw [← contains_iff]
    decide
  · intro w h
    have inv : ∀ {y v : Str}, V1Str y v → y = '"' :: (['x', '\\', 's', 'y'] ++ ['"']) → V1Quoted ['x', '\\', 's', 'y'] v := by
      intro y v h e
      cases h with
      | quoted h =>
        rw [(List.append_inj' (List.cons.inj e).2 rfl).1] at h
        exact h
      | raw => exact absurd (List.cons.inj e).1 (by decide)
    obtain ⟨_, _, _, h⟩ := V1Quoted.cons_inv (by decide) (inv h rfl)
    obtain ⟨_, _, h, _⟩ := V1Quoted.escape_inv (by decide) h
    simp [v1Escapes] at h

/-- **C71 violated**, an integer is cut off: an entry made from `2^64 + 5` is written as if
it were `5`. -/
theorem C71_violated_integer [V1Lib] (e : Entry) (hf : e.format = none) (hv : e.value = .integer ⟨2 ^ 64 + 5, by decide⟩) :
    ∃ f, e.ensureV1.format = some f ∧ f.valueRepr = V1Lib.showValue (.base10 ⟨5, by decide⟩) := by
  refine ⟨_, by rw [Entry.ensureV1, hf], ?_⟩
  rw [hv]
  rfl

end

end Kdl
