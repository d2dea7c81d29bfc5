import Verif.Lemmas.Parser.Doubled
import Verif.Lemmas.Parser.DocumentedLost
import Verif.Props.Exact
import Verif.Props.Slashdash
/-
C64, C65: the parser and the grammar that its comments document.
-/

namespace Kdl
open Spec

section
variable [FloatIO]

/-- **C64, partial**: a document by the documented grammar is accepted, with the data that the grammar
gives it. Slashdashed nodes that end with a semicolon (`semi`) are missing: the full claim is
`Documented true ds s → Gives s ds`. -/
theorem C64_documented_partial {s : Str} {ds : List (SNode Value)} (h : Documented false ds s) : Gives s ds := by
  obtain ⟨t, ht, hd⟩ := h
  have := doc_means hd [] [] [] rfl (.empty .leadNil)
  rw [List.append_nil, List.append_nil] at this
  exact C50_document.mpr ⟨t, ht, this⟩

/-- Hence the documented grammar gives a text the data of one document only, and its texts are never errors. -/
theorem C64_unambiguous_partial {s : Str} {ds ds' : List (SNode Value)} (h : Documented false ds s) (h' : Documented false ds' s) :
    ds = ds' := by
  obtain ⟨d, h1, h2⟩ := C64_documented_partial h
  obtain ⟨d', h3, h4⟩ := C64_documented_partial h'
  rw [h1] at h3
  cases h3
  rw [← h2, ← h4]

/-- **C64, the exact condition**: a text of the documented grammar is either one without slashdashed nodes that end
with a semicolon, and is then accepted with its data, or it is an error. It is never read as other data. -/
theorem C64_exact {s : Str} {ds : List (SNode Value)} (h : Documented true ds s) :
    (Documented false ds s ∧ Gives s ds) ∨ (¬ Documented false ds s ∧ Document.parse s = .err) := by
  rcases documented_dead h with h | h
  · exact Or.inl ⟨h, C64_documented_partial h⟩
  · right
    refine ⟨fun h' => ?_, (C06_ok_or_err s).1.resolve_left fun ⟨d, hd⟩ => h d hd⟩
    obtain ⟨d, hd, _⟩ := C64_documented_partial h'
    exact h d hd

/-- Hence an accepted text has, by the whole documented grammar, the data that it is read with, if any. -/
theorem C64_data {s : Str} {ds : List (SNode Value)} {d : Document} (h : Documented true ds s) (hd : Document.parse s = .ok d) :
    semDoc id d = ds := by
  rcases C64_exact h with ⟨_, d', h1, h2⟩ | ⟨_, h1⟩
  · rw [hd] at h1
    cases h1
    exact h2
  · rw [hd] at h1
    cases h1

/-- **C64 fails** as it stands: a slashdashed node that ends with a semicolon is documented, but an error. -/
theorem C64_violated : Documented true [] "/-a;".toList ∧ Document.parse "/-a;".toList = .err := by
  refine ⟨⟨_, Or.inl rfl, ?_⟩, by krfl⟩
  have hb : StrText ['a'] ['a'] := bare_letter (by decide) (by decide)
  have h1 : Doc true (.base true (.mk none ['a'] [] none)) [';'] ['/', '-', 'a'] :=
    Doc.base (sl := ['/', '-']) (tt := []) (nt := ['a']) (T := []) (S := []) (C := []) (S' := []) (w := []) (.yes .nil) (.none .nil)
      hb .nil .skipNil .noBlock .skipNil .nil
  exact Doc.node (l := []) (B := ['/', '-', 'a']) (w := []) (m := [';']) (T := []) .nil h1 .nil (Or.inr (Or.inr (Or.inl rfl)))
    (by simp) (.noNode .nil)

/-- A documented text with an argument, a block and a child. -/
theorem C64_example : Documented false [.mk none ['n'] [⟨none, none, .string ['x']⟩] (some [.mk none ['c'] [] none])]
    "n x { c\n}".toList := by
  refine ⟨_, Or.inl rfl, ?_⟩
  have hn : StrText ['n'] ['n'] := bare_letter (by decide) (by decide)
  have hx : StrText ['x'] ['x'] := bare_letter (by decide) (by decide)
  have hc : StrText ['c'] ['c'] := bare_letter (by decide) (by decide)
  have hC : Doc false (.base false (.mk none ['c'] [] none)) "\n}".toList ['c'] :=
    Doc.base (sl := []) (tt := []) (nt := ['c']) (T := []) (S := []) (C := []) (S' := []) (w := []) .no (.none .nil) hc .nil
      .skipNil .noBlock .skipNil .nil
  have hN : Doc false (.nodes [.mk none ['c'] [] none]) ['}'] " c\n".toList :=
    Doc.node (l := [' ']) (B := ['c']) (w := []) (m := ['\n']) (T := []) (.space (by decide) .nil) hC .nil
      (Or.inr (Or.inl (Or.inr ⟨'\n', rfl, by decide, fun e => absurd e (by decide)⟩))) (by simp) (.noNode .nil)
  have hB : Doc false (.block (some [.mk none ['c'] [] none])) [] " { c\n}".toList :=
    Doc.block (w := [' ']) (C := "{ c\n}".toList) (.space (by decide) .nil) (by simp)
      (Doc.children (N := " c\n".toList) (F := []) (es := []) hN .noFinal)
  have hE : DEntries [⟨none, none, .string ['x']⟩] [' ', 'x'] :=
    DEntries.cons (w := [' ']) (sl := []) (E := ['x']) (T := []) (.space (by decide) .nil) (by simp) .no
      (.arg (tt := []) .none (.str hx)) .nil
  have hD : Doc false (.base false (.mk none ['n'] [⟨none, none, .string ['x']⟩] (some [.mk none ['c'] [] none]))) []
      "n x { c\n}".toList :=
    Doc.base (sl := []) (tt := []) (nt := ['n']) (T := [' ', 'x']) (S := []) (C := " { c\n}".toList) (S' := []) (w := []) .no
      (.none .nil) hn hE .skipNil hB .skipNil .nil
  exact Doc.node (l := []) (B := "n x { c\n}".toList) (w := []) (m := []) (T := []) .nil hD .nil (Or.inr (Or.inr (Or.inr ⟨rfl, rfl⟩)))
    (by simp) (.noNode .nil)

/-- An accepted text, with more put into it. -/
theorem gives_becomes {g : Bool} {s : Str} {ds : List (SNode Value)} (h : Gives s ds) (hs : g = true ∨ ¬ DoubleSlash s) :
    ∃ s', Spc g 0 s s' ∧ Documented false ds s' ∧ Gives s' ds := by
  obtain ⟨t, ht, hd⟩ := C50_document.mp h
  have hn : Fit g t := by
    rcases ht with rfl | rfl
    · exact hs
    · exact noDouble hs (p := [Char.ofNat 0xFEFF]) (q := []) (by simp)
  obtain ⟨t', h1, _, h2⟩ := text_becomes hd hn ⟨[], Or.inl ⟨rfl, rfl⟩⟩
  have h3 := (h2 [] (Or.inl ⟨rfl, rfl⟩)).document
  rcases ht with rfl | rfl
  · have : Documented false ds t' := ⟨_, Or.inl rfl, h3⟩
    exact ⟨t', h1, this, C64_documented_partial this⟩
  · have : Documented false ds (Char.ofNat 0xFEFF :: t') := ⟨_, Or.inr rfl, h3⟩
    exact ⟨_, .keep h1, this, C64_documented_partial this⟩

/-- **C65, partial**: an accepted text becomes a documented one, with the same data, when spaces and line feeds
are put into it. Texts with doubled slashdashes are missing: the full claim has no `DoubleSlash`. -/
theorem C65_spaced_partial {s : Str} {ds : List (SNode Value)} (h : Gives s ds) (hs : ¬ DoubleSlash s) :
    ∃ s', Spaced s s' ∧ Documented false ds s' ∧ Gives s' ds := by
  obtain ⟨s', h1, h2⟩ := gives_becomes (g := false) h (Or.inr hs)
  exact ⟨s', h1.spaced rfl, h2⟩

/-- **C65** for all accepted texts, with doubled slashdashes as the only exception: every accepted text becomes a
documented one, with the same data, when spaces and line feeds are put into it and, of slashdashes without an entry
between them, the second ones are moved towards the end. -/
theorem C65_shifted_partial {s : Str} {ds : List (SNode Value)} (h : Gives s ds) :
    ∃ s', Shifted 0 s s' ∧ Documented false ds s' ∧ Gives s' ds := by
  obtain ⟨s', h1, h2⟩ := gives_becomes (g := true) h (Or.inl rfl)
  exact ⟨s', h1.shifted, h2⟩

/-- A text with doubled slashdashes, and what it becomes. -/
theorem C65_example_shifted : Gives "n /-/-x y z".toList [.mk none ['n'] [⟨none, none, .string ['z']⟩] none] ∧
    Shifted 0 "n /-/-x y z".toList "n /- x /-y z".toList ∧
    Gives "n /- x /-y z".toList [.mk none ['n'] [⟨none, none, .string ['z']⟩] none] := by
  refine ⟨gives_iff.mpr (by krfl), ?_, gives_iff.mpr (by krfl)⟩
  have h (t : Str) : Shifted 0 t t := by
    induction t with
    | nil => exact .nil
    | cons c t ih => exact .keep ih
  exact .keep (.keep (.take (w := []) (t := "x y z".toList) (t' := "x /-y z".toList) .nil
    (.keep (.keep (.keep (.keep (.back (h "y z".toList))))))))

/-- **C65 fails** as it stands: a doubled slashdash is accepted (it leaves out both of the following entries), but
no spaces make a documented text of it. -/
theorem C65_violated : Gives "n /-/-x y z".toList [.mk none ['n'] [⟨none, none, .string ['z']⟩] none] ∧
    ∀ s' semi ds, Spaced "n /-/-x y z".toList s' → ¬ Documented semi ds s' :=
  ⟨gives_iff.mpr (by krfl), fun _ semi ds h => doubled_undocumented h semi ds⟩

/-- A text without spaces in front of its blocks, one of which is slashdashed. -/
theorem C65_example : Gives "a{}/-{b}".toList [.mk none ['a'] [] (some [])] ∧ ¬ DoubleSlash "a{}/-{b}".toList := by
  refine ⟨gives_iff.mpr (by krfl), ?_⟩
  rintro ⟨a, w, b, e, _⟩
  have h1 : ("a{}/-{b}".toList.filter (· = '-')).length = 1 := by decide
  rw [e] at h1
  simp [List.filter_append] at h1
  omega

end

end Kdl
