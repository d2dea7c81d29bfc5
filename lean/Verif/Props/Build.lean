import Verif.Lemmas.Parser.Jam
import Verif.Lemmas.KernelRfl
import Verif.Spec.Build
import Verif.Props.Values
import Verif.Props.Parse
/-
C10: documents built through the API, printed and read back.
-/

namespace Kdl
open Spec

/-- Strings that do not start with a sign are `Writable` if their characters are
clean. -/
theorem Spec.Writable.of_head {s : Str} (h1 : ∀ c ∈ s, CleanChar c) (h2 : s.head? ≠ some '+' ∧ s.head? ≠ some '-') :
    Writable s := by
  refine ⟨h1, ?_⟩
  rintro ⟨⟨g, d, t, hg, _, rfl⟩, _⟩
  rcases hg with rfl | rfl
  · exact h2.1 rfl
  · exact h2.2 rfl

/-! ### Shape of built documents -/

/-- No representations, no format. -/
structure EntShape (e : Entry) : Prop where
  format : e.format = none
  name : ∀ n, e.name = some n → n.repr = none
  ty : ∀ n, e.ty = some n → n.repr = none

mutual
/-- No representations, and the format given by `KdlNode::new`. -/
inductive NodeShape : Node → Prop
  | mk {ty : Option Ident} {name : Ident} {es : List Entry} {ch : Option Document} {span : Span}
      (h1 : ∀ t, ty = some t → t.repr = none) (h2 : name.repr = none)
      (h3 : ∀ e ∈ es, EntShape e) (h4 : ∀ d, ch = some d → DocShape d) :
      NodeShape (.mk ty name es ch (some { trailing := ['\n'] }) span)
/-- No format. -/
inductive DocShape : Document → Prop
  | mk {ns : List Node} {span : Span} (h : ∀ n ∈ ns, NodeShape n) : DocShape (.mk ns none span)
end

theorem BuiltEntry.shape {e : Entry} (h : BuiltEntry e) : EntShape e := by
  induction h with
  | new v => exact ⟨rfl, by rintro _ ⟨⟩, by rintro _ ⟨⟩⟩
  | newProp k v => exact ⟨rfl, by rintro _ ⟨⟩; rfl, by rintro _ ⟨⟩⟩
  | setTy t _ ih => exact ⟨ih.format, ih.name, by rintro _ ⟨⟩; rfl⟩
  | setValue v _ ih => exact ⟨ih.format, ih.name, ih.ty⟩

mutual
theorem BuiltNode.shape : ∀ {n : Node}, BuiltNode n → NodeShape n
  | _, .new name => .mk (by rintro _ ⟨⟩) rfl (by rintro _ ⟨⟩) (by rintro _ ⟨⟩)
  | _, .setTy t h => by
    cases BuiltNode.shape h with
    | mk h1 h2 h3 h4 => exact .mk (by rintro _ ⟨⟩; rfl) h2 h3 h4
  | _, .setName t h => by
    cases BuiltNode.shape h with
    | mk h1 h2 h3 h4 => exact .mk h1 rfl h3 h4
  | _, .push h he => by
    cases BuiltNode.shape h with
    | mk h1 h2 h3 h4 =>
      refine .mk h1 h2 ?_ h4
      intro e hm
      rcases List.mem_append.mp hm with hm | hm
      · exact h3 e hm
      · rw [List.mem_singleton.mp hm]; exact BuiltEntry.shape he
  | _, .clear h => by
    cases BuiltNode.shape h with
    | mk h1 h2 h3 h4 => exact .mk h1 h2 (by rintro _ ⟨⟩) h4
  | _, .ensureChildren h => by
    cases BuiltNode.shape h with
    | @mk ty name es ch span h1 h2 h3 h4 =>
      cases ch with
      | none => exact .mk h1 h2 h3 (by rintro _ ⟨⟩; exact .mk (by rintro _ ⟨⟩))
      | some d => exact .mk h1 h2 h3 h4
  | _, .setChildren h hd => by
    cases BuiltNode.shape h with
    | mk h1 h2 h3 h4 => exact .mk h1 h2 h3 (by rintro _ ⟨⟩; exact BuiltDoc.shape hd)
  | _, .clearChildren h => by
    cases BuiltNode.shape h with
    | mk h1 h2 h3 h4 => exact .mk h1 h2 h3 (by rintro _ ⟨⟩)
theorem BuiltDoc.shape : ∀ {d : Document}, BuiltDoc d → DocShape d
  | _, .new => .mk (by rintro _ ⟨⟩)
  | _, .push hd hn => by
    cases BuiltDoc.shape hd with
    | mk h =>
      refine .mk ?_
      intro m hm
      rcases List.mem_append.mp hm with hm | hm
      · exact h m hm
      · rw [List.mem_singleton.mp hm]; exact BuiltNode.shape hn
end

section
variable [FloatIO] [LawfulFloatIO]

omit [LawfulFloatIO] in
theorem StrTok.ident {i : Ident} (hr : i.repr = none) (h : Writable i.value) : StrTok i.value i.display := by
  unfold Ident.display
  rw [hr]
  exact StrTok.write h

omit [LawfulFloatIO] in
theorem Ident.frame {i : Ident} (hr : i.repr = none) :
    (StrTok i.value i.display ∨ StrBad i.display) ∧ (StrTok i.value i.display ↔ Writable i.value) := by
  unfold Ident.display
  rw [hr]
  exact ⟨str_frame _, strTok_write_iff⟩

mutual
theorem NodeShape.frame : ∀ {n : Node}, NodeShape n → NodeFrame n
  | _, .mk h1 h2 h3 h4 =>
    .mk (fun t e => (Ident.frame (h1 t e)).1) (Ident.frame h2).1
      (fun e he => ⟨(h3 e he).format, fun n hn => (Ident.frame ((h3 e he).name n hn)).1,
        fun n hn => (Ident.frame ((h3 e he).ty n hn)).1, val_frame _⟩)
      (by rintro _ ⟨⟩
          exact ⟨by rintro _ ⟨⟩, by rintro _ ⟨⟩, by
            intro c hc
            simp only [List.append_nil, List.nil_append, List.mem_singleton] at hc
            rw [hc]; exact Or.inr (by decide)⟩)
      (fun d e => DocShape.frame (h4 d e))
theorem DocShape.frame : ∀ {d : Document}, DocShape d → DocFrame d
  | _, .mk h =>
    .mk (by rintro _ ⟨⟩) (fun n hn => NodeShape.frame (h n hn)) (by
      intro n hn
      cases h n (List.dropLast_subset _ hn) with
      | mk => exact ⟨'\n', by simp [Node.afterText, Node.format], by decide⟩)
end

mutual
theorem NodeShape.good : ∀ {n : Node}, NodeShape n → NodeWritable n → NodeGood n
  | _, .mk h1 h2 h3 h4, .mk w1 w2 w3 w4 =>
    .mk (fun t e => (Ident.frame (h1 t e)).2.mpr (w1 t e)) ((Ident.frame h2).2.mpr w2)
      (fun e he => ⟨fun n hn => (Ident.frame ((h3 e he).name n hn)).2.mpr ((w3 e he).name n hn),
        fun n hn => (Ident.frame ((h3 e he).ty n hn)).2.mpr ((w3 e he).ty n hn), valTok_write_iff.mpr (w3 e he).value⟩)
      (fun d e => DocShape.good (h4 d e) (w4 d e))
theorem DocShape.good : ∀ {d : Document}, DocShape d → DocWritable d → DocGood d
  | _, .mk h, .mk w => .mk fun n hn => NodeShape.good (h n hn) (w n hn)
end

mutual
theorem NodeShape.writable : ∀ {n : Node}, NodeShape n → NodeGood n → NodeWritable n
  | _, .mk h1 h2 h3 h4, .mk w1 w2 w3 w4 =>
    .mk (fun t e => (Ident.frame (h1 t e)).2.mp (w1 t e)) ((Ident.frame h2).2.mp w2)
      (fun e he => ⟨fun n hn => (Ident.frame ((h3 e he).name n hn)).2.mp ((w3 e he).name n hn),
        fun n hn => (Ident.frame ((h3 e he).ty n hn)).2.mp ((w3 e he).ty n hn), valTok_write_iff.mp (w3 e he).value⟩)
      (fun d e => DocShape.writable (h4 d e) (w4 d e))
theorem DocShape.writable : ∀ {d : Document}, DocShape d → DocGood d → DocWritable d
  | _, .mk h, .mk w => .mk fun n hn => NodeShape.writable (h n hn) (w n hn)
end

omit [LawfulFloatIO] in
theorem canon_idem (v : Value) : canonValue (canonValue v) = canonValue v := by
  cases v with
  | float x =>
    unfold canonValue
    by_cases hx : x.isNan = true
    · simp only [hx, if_true]; decide
    · simp [hx]
  | _ => rfl

/-- **C10**, the boundary: a built document prints to a text that is accepted, with the same data
(any NaN being read as the standard one), exactly if its strings and integers can be written;
otherwise the text is rejected. -/
theorem C10_exact {d : Document} (h : BuiltDoc d) :
    (DocWritable d ∧ ∃ d', Document.parse d.display = .ok d' ∧ semDoc canonValue d' = semDoc canonValue d) ∨
      (¬ DocWritable d ∧ Document.parse d.display = .err) := by
  have hs := BuiltDoc.shape h
  rcases hs.frame.parse canon_idem with ⟨h1, h2⟩ | ⟨h1, h2⟩
  · exact Or.inl ⟨hs.writable h1, h2⟩
  · refine Or.inr ⟨fun hw => h1 (hs.good hw), ?_⟩
    rcases (C06_ok_or_err d.display).1 with ⟨d', h3⟩ | h3
    · exact absurd h3 (h2 d')
    · exact h3

/-- **C10**, partial: a built document whose strings and integers can be written
prints to a text that is accepted, and the parsed document has the same data (any
NaN being read as the standard one). Missing from C10: documents containing a
string that is not `Writable` or the smallest integer, which are all rejected
(`C10_exact`). -/
theorem C10_built_partial {d : Document} (h : BuiltDoc d) (hw : DocWritable d) :
    ∃ d', Document.parse d.display = .ok d' ∧ semDoc canonValue d' = semDoc canonValue d := by
  rcases C10_exact h with ⟨_, h⟩ | ⟨h, _⟩
  · exact h
  · exact absurd hw h

omit [LawfulFloatIO] in
/-- C10 is violated: a node named `-.5` is printed as the line `-.5`, which is
rejected. -/
theorem C10_violated : ∃ d, BuiltDoc d ∧ Document.parse d.display = .err :=
  ⟨_, .push .new (.new ['-', '.', '5']), by krfl⟩

end

/-- `(u8)a 1 "k 1"=#true 1{ b }`, built: a document meeting the hypotheses of
`C10_built_partial`. -/
example [FloatIO] : ∃ d : Document, BuiltDoc d ∧ DocWritable d ∧
    d.display = "(u8)a 1 \"k 1\"=#true 1{\nb\n}\n".toList := by
  refine ⟨_, .push .new (.setChildren (.push (.push (.push (.setTy ['u', '8'] (.new ['a'])) (.new (.integer ⟨1, by decide⟩)))
      (.newProp ['k', ' ', '1'] (.bool true))) (.new (.integer ⟨1, by decide⟩))) (.push .new (.new ['b']))), ?_, by krfl⟩
  refine .mk fun n hn => ?_
  rw [List.mem_singleton.mp hn]
  refine .mk ?_ (.of_head (by decide) (by decide)) ?_ ?_
  · rintro _ ⟨⟩
    exact .of_head (by decide) (by decide)
  · intro e he
    have he : e ∈ [Entry.new (.integer ⟨1, by decide⟩), .newProp (.ofStr ['k', ' ', '1']) (.bool true),
      .new (.integer ⟨1, by decide⟩)] := he
    simp only [List.mem_cons, List.not_mem_nil, or_false] at he
    rcases he with rfl | rfl | rfl
    · exact ⟨by rintro _ ⟨⟩, by rintro _ ⟨⟩, by show (1 : Int) ≠ i128Min; decide⟩
    · exact ⟨by rintro _ ⟨⟩; exact .of_head (by decide) (by decide), by rintro _ ⟨⟩, trivial⟩
    · exact ⟨by rintro _ ⟨⟩, by rintro _ ⟨⟩, by show (1 : Int) ≠ i128Min; decide⟩
  · rintro _ ⟨⟩
    refine .mk fun m hm => ?_
    rw [List.mem_singleton.mp hm]
    exact .mk (by rintro _ ⟨⟩) (.of_head (by decide) (by decide)) (by rintro _ ⟨⟩) (by rintro _ ⟨⟩)

end Kdl
