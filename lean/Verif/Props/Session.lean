import Verif.Lemmas.Parser.TidyStep
import Verif.Props.InPlace
import Verif.Model.Ser
/-
C53: parsed documents, changed through the API any number of times and printed.
-/

namespace Kdl
open Spec

section
variable [FloatIO]

omit [FloatIO] in
theorem lspace_bom {r w : Str} (h : LSpace r (Char.ofNat 0xFEFF :: w)) : False := by
  generalize e : Char.ofNat 0xFEFF :: w = t at h
  cases h with
  | nil => cases e
  | space h1 _ =>
    obtain ⟨rfl, _⟩ := List.cons.inj e
    exact absurd h1 (by decide)
  | comment _ _ => exact absurd (List.cons.inj e).1 (by decide)
  | cont _ _ _ => exact absurd (List.cons.inj e).1 (by decide)
  | newline hm _ =>
    obtain ⟨c, q, rfl, hc⟩ := hm.head
    obtain ⟨rfl, _⟩ := List.cons.inj e
    exact absurd hc (by decide)
  | line hm _ =>
    obtain ⟨q, rfl⟩ := lineComment_len hm
    exact absurd (List.cons.inj e).1 (by decide)

/-- The format with the byte order mark. -/
def bomFmt (f : DocFmt) : DocFmt := { f with leading := Char.ofNat 0xFEFF :: f.leading }

theorem step_bom {f : DocFmt} {d d' : Document} (h : DocStep d d') : d.format = some (bomFmt f) →
    ∃ sp, d' = .mk d'.nodes (some (bomFmt f)) sp ∧ DocStep (.mk d.nodes (some f) sp) (.mk d'.nodes (some f) sp) := by
  cases h with
  | @node a b n n' g sp h => rintro ⟨⟩; exact ⟨_, rfl, .node h⟩
  | @insert a b n g sp h ha hf =>
    rintro ⟨⟩
    refine ⟨_, rfl, .insert h ha (hf.imp id fun hf f' e => ?_)⟩
    exact absurd (hf _ rfl) lspace_bom
  | remove => rintro ⟨⟩; exact ⟨_, rfl, .remove⟩
  | retain p => rintro ⟨⟩; exact ⟨_, rfl, .retain p⟩
  | reorder hp h => rintro ⟨⟩; exact ⟨_, rfl, .reorder hp h⟩

theorem TidyDoc.span {r : Str} {ns : List Node} {f : Option DocFmt} {sp : Span} (h : TidyDoc r (.mk ns f sp)) (sp' : Span) :
    TidyDoc r (.mk ns f sp') := by
  cases h with
  | mk a b c d e f => exact .mk a b c d e f

theorem steps_bom [LawfulFloatIO] {f : DocFmt} {d e : Document} (h : DocSteps d e) (hd : d.format = some (bomFmt f))
    (ht : TidyDoc [] (.mk d.nodes (some f) d.span)) :
    e.format = some (bomFmt f) ∧ TidyDoc [] (.mk e.nodes (some f) e.span) := by
  induction h with
  | refl => exact ⟨hd, ht⟩
  | step _ hs ih =>
    obtain ⟨i1, i2⟩ := ih
    obtain ⟨sp, e1, e2⟩ := step_bom hs i1
    exact ⟨by rw [e1]; rfl, (e2.tidy (i2.span sp)).span _⟩

theorem steps_tidy [LawfulFloatIO] {r : Str} {d e : Document} (h : DocSteps d e) (ht : TidyDoc r d) : TidyDoc r e := by
  induction h with
  | refl => exact ht
  | step _ hs ih => exact hs.tidy ih

theorem steps_format {d e : Document} (h : DocSteps d e) : e.format = d.format := by
  induction h with
  | refl => rfl
  | step _ hs ih => rw [← ih]; cases hs <;> rfl

theorem tidy_text {d : Document} (h : TidyDoc [] d) (hf : d.format.isSome = true) : DocumentText (semDoc id d) d.display := by
  have := h.goal 0 0
  obtain ⟨f, hf⟩ := Option.isSome_iff_exists.mp hf
  simpa [hf, Document.display] using this

/-- **C53**, partial: a document is parsed and changed by any number of calls of `set_name`, `set_ty`, `push`,
`insert`, `remove`, `retain` and `clear` on its nodes, and of `insert`, `push`, `remove`, `retain` and reordering on
its vectors of nodes, at any depth. The printed document is accepted, and has the data of the changed one. Missing
from C53: documents where the parser has not recorded the terminator of a node that is not the last, or where a
slashdash directly follows the last node, and insertions after a node without a terminator; for these C53 fails
(`C53_violated_*`). -/
theorem C53_session_partial [LawfulFloatIO] {s : Str} {d e : Document} (h : Document.parse s = .ok d) (hs : SealedDoc d)
    (he : DocSteps d e) : Gives e.display (semDoc id e) := by
  obtain ⟨D, d', hD, ⟨rfl, rfl⟩ | ⟨rfl, rfl⟩⟩ := parse_exact h
  · have ht := steps_tidy he (hD.tidy [] (Or.inl rfl) hs)
    obtain ⟨f, hf⟩ := hD.formatDoc
    exact C50_document.mpr ⟨_, Or.inl rfl, tidy_text ht (by rw [steps_format he, hf]; rfl)⟩
  · obtain ⟨f, hf⟩ := hD.formatDoc
    obtain ⟨ns, f0, sp⟩ := d'
    obtain rfl : f0 = some f := hf
    have hs' : SealedDoc (.mk ns (some f) sp) := by
      cases hs with
      | mk a b c =>
        refine .mk a b fun n hn => (c n hn).imp id fun h => h.imp id fun h f' e => ?_
        cases e
        exact h (bomFmt f) rfl
    obtain ⟨e1, e2⟩ := steps_bom (f := f) he rfl ((hD.tidy [] (Or.inl rfl) hs').span _)
    obtain ⟨ns', f1, sp'⟩ := e
    obtain rfl : f1 = some (bomFmt f) := e1
    refine C50_document.mpr ⟨(Document.mk ns' (some f) sp').display, Or.inr ?_, tidy_text (d := .mk ns' (some f) sp') e2 rfl⟩
    simp [Document.display, Document.stringify, bomFmt, Document.nodes]

/-! ### Concrete cases -/

/-- The node ends with a semicolon or a line feed. -/
def sealedEndB (n : Node) : Bool := (endOf n == [';'] || endOf n == ['\n']) && !(terminatorOf n).isEmpty

omit [FloatIO] in
theorem sealedEndB_ok {n : Node} (h : sealedEndB n = true) : Sealed n ∧ terminatorOf n ≠ [] := by
  obtain ⟨h1, h2⟩ := (Bool.and_eq_true _ _).mp h
  refine ⟨fun x => ?_, by simpa using h2⟩
  rcases (Bool.or_eq_true _ _).mp h1 with h | h
  · rw [eq_of_beq h]; exact Or.inl rfl
  · rw [eq_of_beq h]; exact newline_term x

mutual
/-- A sufficient condition for `SealedBelow`, computed. -/
def sealedBelowB : Node → Bool
  | .mk _ _ _ ch _ _ => sealedOptB ch
/-- The same for a children block. -/
def sealedOptB : Option Document → Bool
  | none => true
  | some d => sealedB d
/-- A sufficient condition for `SealedDoc`, computed. -/
def sealedB : Document → Bool
  | .mk ns f _ => sealedNodesB (match f with | some f => f.trailing.isEmpty | none => true) ns
/-- The same for a list of nodes. -/
def sealedNodesB (t : Bool) : List Node → Bool
  | [] => true
  | n :: ns => sealedBelowB n && ((ns.isEmpty && t) || sealedEndB n) && sealedNodesB t ns
end

mutual
theorem sealedBelowB_ok : ∀ {n : Node}, sealedBelowB n = true → SealedBelow n
  | .mk _ _ _ ch _ _, h => .mk fun d hd => sealedOptB_ok (ch := ch) h d hd
theorem sealedOptB_ok : ∀ {ch : Option Document}, sealedOptB ch = true → ∀ d, ch = some d → SealedDoc d
  | none, _, _, e => by cases e
  | some d, h, d', e => by
    cases e
    exact sealedB_ok (d := d) h
theorem sealedB_ok : ∀ {d : Document}, sealedB d = true → SealedDoc d
  | .mk ns f sp, h => by
    obtain ⟨h1, h2, h3⟩ := sealedNodesB_ok (ns := ns) h
    refine .mk h1 h2 fun n hn => ?_
    rcases h3 n hn with h | h
    · exact Or.inl h
    · refine Or.inr (Or.inr ?_)
      rintro f' rfl q e
      simp [e] at h
theorem sealedNodesB_ok {t : Bool} : ∀ {ns : List Node}, sealedNodesB t ns = true →
    (∀ n ∈ ns, SealedBelow n) ∧ (∀ n ∈ ns.dropLast, Sealed n) ∧ (∀ n, ns.getLast? = some n → terminatorOf n ≠ [] ∨ t = true)
  | [], _ => by simp
  | n :: ns, h => by
    simp only [sealedNodesB, Bool.and_eq_true, Bool.or_eq_true] at h
    obtain ⟨⟨h1, h2⟩, h3⟩ := h
    have h4 := sealedBelowB_ok (n := n) h1
    obtain ⟨h5, h6, h7⟩ := sealedNodesB_ok (ns := ns) h3
    refine ⟨fun m hm => ?_, fun m hm => ?_, fun m hm => ?_⟩
    · rcases List.mem_cons.mp hm with rfl | hm
      · exact h4
      · exact h5 m hm
    · cases ns with
      | nil => simp at hm
      | cons n2 ns =>
        rw [List.dropLast_cons_cons] at hm
        rcases List.mem_cons.mp hm with rfl | hm
        · exact (sealedEndB_ok (by simpa using h2)).1
        · exact h6 m hm
    · cases ns with
      | nil =>
        obtain rfl : n = m := by simpa using hm
        rcases h2 with h2 | h2
        · exact Or.inr h2.2
        · exact Or.inl (sealedEndB_ok h2).2
      | cons n2 ns => exact h7 m (by rw [List.getLast?_cons_cons] at hm; exact hm)
end

/-- A document with comments, slashdashes, an annotation and a children block. -/
def sessionSample : Str := "// c\n(t)a 1 /*d*/ k=v /-2 {\n  b #true; c\n}\nd; // e\n".toList

/-- The first node gets another name, a new node follows it, and all nodes called `d` are removed. -/
def sessionResult (d : Document) : Document :=
  match d with
  | .mk (n :: ns) f sp =>
    .mk ((n.setName (.ofStr "x".toList) :: .new (.ofStr "y".toList) :: ns).filter fun m => m.name.value != "d".toList) f sp
  | d => d

theorem fresh_y : FreshNode (.new (.ofStr "y".toList)) :=
  ⟨.new _, .mk (by rintro _ ⟨⟩) (Writable.of_head (by decide) (by decide)) (by rintro _ ⟨⟩) (by rintro _ ⟨⟩), rfl⟩

/-- The hypotheses of C53 can be met: what is printed after three changes. -/
theorem C53_example : ∃ d e, Document.parse sessionSample = .ok d ∧ SealedDoc d ∧ DocSteps d e ∧
    e.display = "// c\n(t)x 1 /*d*/ k=v /-2 {\n  b #true; c\n}\ny\n // e\n".toList := by
  obtain ⟨d, h1, h2⟩ := ParseResult.holds_ok (r := Document.parse sessionSample)
    (f := fun d : Document => sealedB d && (match d.nodes with | n :: _ => sealedEndB n | [] => false) &&
      decide ((sessionResult d).display = "// c\n(t)x 1 /*d*/ k=v /-2 {\n  b #true; c\n}\ny\n // e\n".toList)) (by krfl)
  rw [Bool.and_eq_true, Bool.and_eq_true] at h2
  obtain ⟨⟨h2, h3⟩, h4⟩ := h2
  refine ⟨d, sessionResult d, h1, sealedB_ok h2, ?_, of_decide_eq_true h4⟩
  obtain ⟨ns, f, sp⟩ := d
  cases ns with
  | nil => cases h3
  | cons n ns =>
    have hs := (sealedEndB_ok h3).1
    refine .step (.step (.step .refl (.node (a := []) (n := n) (b := ns) (.setName (s := "x".toList) ?_)))
      (.insert (a := [n.setName (.ofStr "x".toList)]) (b := ns) fresh_y ?_ ?_)) (.retain _)
    · exact Writable.of_head (by decide) (by decide)
    · intro m hm
      obtain rfl : n.setName (.ofStr "x".toList) = m := by simpa using hm
      cases n
      exact hs
    · exact Or.inl (by simp)

/-! ### Where the code violates C53 -/

/-- C53 is violated: `a`, with a node `b` pushed, is printed as `ab`. -/
theorem C53_violated_unterminated : ∃ d, Document.parse ['a'] = .ok d ∧
    (d.pushNode (.new (.ofStr ['b']))).display = ['a', 'b', '\n'] ∧
    Gives ['a', 'b', '\n'] [.mk none ['a', 'b'] [] none] := by
  obtain ⟨d, h1, h2⟩ := ParseResult.holds_ok (r := Document.parse ['a'])
    (f := fun d : Document => decide ((d.pushNode (.new (.ofStr ['b']))).display = ['a', 'b', '\n'])) (by krfl)
  exact ⟨d, h1, of_decide_eq_true h2, gives_iff.mpr (by krfl)⟩

/-- C53 is violated: a node pushed to a document that ends with a comment becomes part of the comment. -/
theorem C53_violated_comment : ∃ d, Document.parse ['/', '/', 'a'] = .ok d ∧
    (d.pushNode (.new (.ofStr ['b']))).display = ['/', '/', 'a', 'b', '\n'] ∧
    Gives ['/', '/', 'a', 'b', '\n'] [] := by
  obtain ⟨d, h1, h2⟩ := ParseResult.holds_ok (r := Document.parse ['/', '/', 'a'])
    (f := fun d : Document => decide ((d.pushNode (.new (.ofStr ['b']))).display = ['/', '/', 'a', 'b', '\n'])) (by krfl)
  exact ⟨d, h1, of_decide_eq_true h2, gives_iff.mpr (by krfl)⟩

/-- C53 is violated: a node with a keyword in front of a slashdash gets a further entry. -/
theorem C53_violated_slashdash : ∃ d, Document.parse "a #true/-b".toList = .ok d ∧
    Document.parse (pushFirst d (.new (.integer ⟨1, by decide⟩))).display = .err := C52_violated_slashdash

end

end Kdl
