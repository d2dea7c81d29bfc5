import Verif.Lemmas.Settle
import Verif.Lemmas.V2Text
import Verif.Props.Reprint
/-
C13, exactly: which documents are left alone by a second `autoformat`.
-/

namespace Kdl
open Spec

/-- Two carriage returns and a line feed somewhere between characters that are
not white space. -/
def Spec.Doubled (t : Str) : Prop :=
  ∃ a b, t = a ++ "\r\r\n".toList ++ b ∧ (∃ c ∈ a, isWhitespace c = false) ∧ ∃ c ∈ b, isWhitespace c = false

/-- The text is removed, or nowhere doubled. -/
def Spec.Settled (noComments : Bool) (t : Str) : Prop := noComments = true ∨ ¬ Doubled t

mutual
/-- Every node has a format record whose trailing texts are settled, and no entry
is marked to be kept (unless the configuration keeps all of them). -/
def Spec.SettledNode (noComments keep : Bool) : Node → Prop
  | .mk _ _ es c f _ =>
      (∃ f', f = some f' ∧ Settled noComments f'.beforeTerminator ∧ Settled noComments f'.trailing) ∧
      (keep = true ∨ ∀ e ∈ es, ∀ f, e.format = some f → f.autoformatKeep = false) ∧
      SettledOpt noComments keep c
/-- As above, for children. -/
def Spec.SettledOpt (noComments keep : Bool) : Option Document → Prop
  | none => True
  | some d => SettledDoc noComments keep d
/-- As above, for documents, whose format record may be missing. -/
def Spec.SettledDoc (noComments keep : Bool) : Document → Prop
  | .mk ns f _ => (∀ f', f = some f' → Settled noComments f'.trailing) ∧ SettledNodes noComments keep ns
/-- As above, for lists of nodes. -/
def Spec.SettledNodes (noComments keep : Bool) : List Node → Prop
  | [] => True
  | n :: ns => SettledNode noComments keep n ∧ SettledNodes noComments keep ns
end

theorem settled_iff {nc : Bool} {t : Str} : Settled nc t ↔ nc = true ∨ ¬ ['\r', '\r', '\n'] <:+: trim t :=
  or_congr_right (not_congr (infix_trim (by decide) (by decide)).symm)

theorem autoformatNodeFmt_settles (c : FormatConfig) (hi : AllWs c.indent) (f : Option NodeFmt) :
    autoformatNodeFmt c (some (autoformatNodeFmt c f)) = autoformatNodeFmt c f ↔
      ∃ f', f = some f' ∧ Settled c.noComments f'.beforeTerminator ∧ Settled c.noComments f'.trailing := by
  cases f with
  | none =>
    constructor
    · intro h
      have := congrArg NodeFmt.beforeChildren h
      simp [autoformatNodeFmt] at this
    · rintro ⟨f', h, _⟩; cases h
  | some f =>
    have h1 := autoformatTrailing_settles c.noComments f.beforeTerminator [] AllWs.nil
    rw [List.append_nil, ← settled_iff] at h1
    have h2 := autoformatNodeTrailing_settles c f.trailing
    rw [← settled_iff] at h2
    have h3 := autoformatLeading_idem c hi f.leading (autoformatLeading c f.leading) rfl
    have h4 : ∀ t : Str, (match (match t with
          | '\n' :: _ => t
          | _ => ['\n']) with
        | '\n' :: _ => (match t with
          | '\n' :: _ => t
          | _ => ['\n'])
        | _ => ['\n']) = (match t with
          | '\n' :: _ => t
          | _ => ['\n']) := by
      intro t
      split
      · rfl
      · rename_i h; split at h
        · exact absurd rfl (h _)
        · exact absurd rfl (h _)
    constructor
    · intro h
      refine ⟨f, rfl, h1.mp ?_, h2.mp ?_⟩
      · exact congrArg NodeFmt.beforeTerminator h
      · exact congrArg NodeFmt.trailing h
    · rintro ⟨_, ⟨⟩, g1, g2⟩
      simp only [autoformatNodeFmt, h1.mpr g1, h2.mpr g2, h3, NodeFmt.mk.injEq, true_and, and_true]
      exact h4 _

theorem autoformatEntry_settles (c : FormatConfig) (e : Entry) :
    autoformatEntry c (autoformatEntry c e) = autoformatEntry c e ↔
      c.entryKeep = true ∨ ∀ f, e.format = some f → f.autoformatKeep = false := by
  refine ⟨fun h => ?_, autoformatEntry_idem c e⟩
  cases hk : c.entryKeep with
  | true => exact Or.inl rfl
  | false =>
    refine Or.inr fun f hf => ?_
    cases ha : f.autoformatKeep with
    | false => rfl
    | true =>
      have := congrArg Entry.format h
      simp [autoformatEntry, hk, Entry.autoformat, hf, ha] at this

theorem autoformatDocFmt_child_settles (c : FormatConfig) (hi : AllWs c.indent) (b : Bool) (f : DocFmt) :
    autoformatChildFmt c (autoformatDocFmt { c with indentLevel := c.indentLevel + 1 } b
      (autoformatChildFmt c (autoformatDocFmt { c with indentLevel := c.indentLevel + 1 } b f))) =
    autoformatChildFmt c (autoformatDocFmt { c with indentLevel := c.indentLevel + 1 } b f) ↔
      Settled c.noComments f.trailing := by
  have hiw := indentText_ws c hi
  have hw : AllWs ((if b then [] else ['\n']) ++ indentText c) := by
    refine AllWs.append ?_ hiw
    cases b <;> decide
  have hl : trim (autoformatLeading { c with indentLevel := c.indentLevel + 1 }
      (trim (autoformatLeading { c with indentLevel := c.indentLevel + 1 } f.leading) ++ ['\n'])) ++ ['\n'] =
      trim (autoformatLeading { c with indentLevel := c.indentLevel + 1 } f.leading) ++ ['\n'] := by
    rw [autoformatLeading_idem { c with indentLevel := c.indentLevel + 1 } hi f.leading]
    have hnl : AllWs ['\n'] := by decide
    rw [content_ws_suffix _ _ hnl, content_trim]
  rw [settled_iff, ← autoformatTrailing_settles c.noComments f.trailing _ hw]
  simp only [autoformatChildFmt, autoformatDocFmt, DocFmt.mk.injEq, hl, true_and, List.append_assoc,
    List.append_cancel_right_eq]

theorem autoformatDocFmt_settles (c : FormatConfig) (hi : AllWs c.indent) (b : Bool) (f : DocFmt) :
    autoformatDocFmt c b (autoformatDocFmt c b f) = autoformatDocFmt c b f ↔ Settled c.noComments f.trailing := by
  have hw : AllWs (if b then [] else ['\n']) := by cases b <;> decide
  rw [settled_iff, ← autoformatTrailing_settles c.noComments f.trailing _ hw]
  simp only [autoformatDocFmt, DocFmt.mk.injEq, autoformatLeading_idem c hi f.leading _ rfl, true_and,
    List.append_cancel_right_eq]

theorem map_eq_self_iff {α : Type} (g : α → α) (l : List α) : l.map g = l ↔ ∀ a ∈ l, g a = a := by
  induction l with
  | nil => simp
  | cons a l ih => simp [ih]

mutual
theorem autoformatNode_settles : ∀ (c : FormatConfig), AllWs c.indent → ∀ n : Node,
    (n.autoformatConfig c).autoformatConfig c = n.autoformatConfig c ↔ SettledNode c.noComments c.entryKeep n
  | c, hi, .mk ty name entries children format span => by
    have h1 := autoformatOptDoc_settles c hi children
    have h2 : (entries.map (autoformatEntry c)).map (autoformatEntry c) = entries.map (autoformatEntry c) ↔
        (c.entryKeep = true ∨ ∀ e ∈ entries, ∀ f, e.format = some f → f.autoformatKeep = false) := by
      rw [map_eq_self_iff]
      simp only [List.mem_map, forall_exists_index, and_imp, forall_apply_eq_imp_iff₂, autoformatEntry_settles]
      constructor
      · intro h
        by_cases hk : c.entryKeep = true
        · exact Or.inl hk
        · exact Or.inr fun e he => (h e he).resolve_left hk
      · rintro (h | h) e he
        · exact Or.inl h
        · exact Or.inr (h e he)
    have h3 : (ty.map Ident.clearFormat).map Ident.clearFormat = ty.map Ident.clearFormat := by
      cases ty <;> rfl
    have h4 := autoformatNodeFmt_settles c hi format
    simp only [Node.autoformatConfig, SettledNode, Node.mk.injEq, h1, h2, h3, Option.some.injEq, h4, true_and, and_true]
    constructor
    · rintro ⟨_, a, b, d⟩; exact ⟨d, a, b⟩
    · rintro ⟨d, a, b⟩; exact ⟨rfl, a, b, d⟩
theorem autoformatOptDoc_settles : ∀ (c : FormatConfig), AllWs c.indent → ∀ d : Option Document,
    autoformatOptDoc c (autoformatOptDoc c d) = autoformatOptDoc c d ↔ SettledOpt c.noComments c.entryKeep d
  | c, hi, none => by simp [autoformatOptDoc, SettledOpt]
  | c, hi, some (.mk ns f s) => by
    have h1 := autoformatNodes_settles { c with indentLevel := c.indentLevel + 1 } hi ns
    have hne : ∀ l, (autoformatNodes { c with indentLevel := c.indentLevel + 1 } l).isEmpty =
        l.isEmpty := by intro l; cases l <;> rfl
    simp only [autoformatOptDoc, Document.autoformatConfig, Document.nodes, Document.format,
      Document.span, hne, SettledOpt, SettledDoc, Option.some.injEq, Document.mk.injEq, h1, and_true]
    rw [and_comm]
    refine and_congr_left fun _ => ?_
    cases f with
    | none => simp
    | some f => simp [autoformatDocFmt_child_settles c hi _ f]
theorem autoformatDoc_settles : ∀ (c : FormatConfig), AllWs c.indent → ∀ d : Document,
    (d.autoformatConfig c).autoformatConfig c = d.autoformatConfig c ↔ SettledDoc c.noComments c.entryKeep d
  | c, hi, .mk ns f s => by
    have h1 := autoformatNodes_settles c hi ns
    have hne : ∀ l, (autoformatNodes c l).isEmpty = l.isEmpty := by intro l; cases l <;> rfl
    simp only [Document.autoformatConfig, SettledDoc, hne, Document.mk.injEq, h1, and_true]
    rw [and_comm]
    refine and_congr_left fun _ => ?_
    cases f with
    | none => simp
    | some f => simp [autoformatDocFmt_settles c hi _ f]
theorem autoformatNodes_settles : ∀ (c : FormatConfig), AllWs c.indent → ∀ ns : List Node,
    autoformatNodes c (autoformatNodes c ns) = autoformatNodes c ns ↔ SettledNodes c.noComments c.entryKeep ns
  | c, hi, [] => by simp [autoformatNodes, SettledNodes]
  | c, hi, n :: ns => by
    simp only [autoformatNodes, SettledNodes, List.cons.injEq, autoformatNode_settles c hi n,
      autoformatNodes_settles c hi ns]
end

/-- **C13, exactly**, for documents: with an indent made of white space, running
`autoformat_config` twice gives the same document as running it once if and only
if every node has a format record, no entry is marked to be kept (or the
configuration keeps all entries), and no trailing text has a doubled carriage
return between other characters (or comments are removed). -/
theorem C13_exact (c : FormatConfig) (hi : AllWs c.indent) (d : Document) :
    (d.autoformatConfig c).autoformatConfig c = d.autoformatConfig c ↔ SettledDoc c.noComments c.entryKeep d :=
  autoformatDoc_settles c hi d

/-- **C13, exactly**, for nodes. -/
theorem C13_node_exact (c : FormatConfig) (hi : AllWs c.indent) (n : Node) :
    (n.autoformatConfig c).autoformatConfig c = n.autoformatConfig c ↔ SettledNode c.noComments c.entryKeep n :=
  autoformatNode_settles c hi n

/-- A document with comments, Windows line ends and children that is settled. -/
example : SettledDoc false false (.mk [.mk none (.ofStr ['a'])
      [⟨none, .null, none, some { valueRepr := "#null".toList, leading := [' '] }, .zero⟩]
      (some (.mk [.mk none (.ofStr ['b']) [] none
        (some { leading := "\r\n // hi\r\n".toList, terminator := [';'] }) .zero]
        (some { trailing := "// x\r\n// y\r\n".toList }) .zero))
      (some { leading := "// c\r\n".toList, terminator := ['\r', '\n'], trailing := ['/', '*', '*', '/'] }) .zero]
      (some { trailing := "// end\r\n// end\r\n".toList }) .zero) := by
  have h : ∀ t, containsStr t "\r\r".toList = false → ¬ Doubled t := by
    rintro t ht ⟨a, b, rfl, -⟩
    rw [← Bool.not_eq_true] at ht
    exact ht (by simpa using containsStr_append a "\r\r".toList ('\n' :: b))
  simp only [SettledDoc, SettledNodes, SettledNode, SettledOpt, Settled]
  refine ⟨?_, ⟨⟨_, rfl, Or.inr (h _ (by decide)), Or.inr (h _ (by decide))⟩, Or.inr ?_, ?_⟩, trivial⟩
  · rintro f ⟨⟩; exact Or.inr (h _ (by decide))
  · intro e he f hf
    simp only [List.mem_singleton] at he
    subst he
    cases hf; rfl
  · refine ⟨?_, ⟨⟨_, rfl, Or.inr (h _ (by decide)), Or.inr (h _ (by decide))⟩, Or.inr (by simp), trivial⟩, trivial⟩
    rintro f ⟨⟩; exact Or.inr (h _ (by decide))

/-! ### Parsed documents -/

section
variable [FloatIO]

theorem Run.infix {whole : Str} {α : Type} {p : P α} {t : Str} (h : Run whole (takeP p) t) : t <:+: whole := by
  obtain ⟨s, r, ⟨pre, rfl⟩, h⟩ := h
  obtain ⟨rfl, _⟩ := takeP_ok.mp h
  obtain ⟨q, hq⟩ := List.take_prefix (s.length - r.length) s
  exact ⟨pre, q, by unfold taken; rw [List.append_assoc, hq]⟩

theorem settled_of_infix {nc : Bool} {t whole : Str} (h : t <:+: whole) (hw : ¬ "\r\r\n".toList <:+: whole) : Settled nc t := by
  refine Or.inr ?_
  rintro ⟨a, b, rfl, -⟩
  exact hw (List.IsInfix.trans ⟨a, b, rfl⟩ h)

mutual
theorem NodeRun.settled {total : Nat} {whole : Str} (hw : ¬ "\r\r\n".toList <:+: whole) (nc keep : Bool) :
    ∀ {n : Node}, NodeRun total whole n → SettledNode nc keep n
  | _, .mk (ch := ch) (f := f) h1 h2 h3 h4 h5 h6 h7 h8 => by
    refine ⟨⟨f, rfl, ?_, ?_⟩, Or.inr ?_, ?_⟩
    · refine settled_of_infix ?_ hw
      obtain ⟨s, r, hs, h⟩ := h6
      unfold tailP at h
      obtain ⟨bt, q, h', h⟩ := bind_ok.mp h
      obtain ⟨t, q', _, h⟩ := bind_ok.mp h
      obtain ⟨e, _⟩ := pure_ok.mp h
      have e1 : f.beforeTerminator = bt := congrArg Prod.fst e
      rw [e1]
      unfold tailText at h'
      split at h'
      · exact Run.infix ⟨s, q, hs, h'⟩
      · exact Run.infix ⟨s, q, hs, h'⟩
    · rw [h7]
      exact settled_of_infix (by simp) hw
    · intro e he f' hf'
      obtain ⟨s', r, _, h⟩ := h3 e he
      obtain ⟨g, hg, hk⟩ := nodeEntry_keep h
      rw [hf'] at hg
      cases hg
      exact hk
    · cases ch with
      | none => trivial
      | some d => exact DocRun.settled hw nc keep (h8 d rfl)
theorem DocRun.settled {total : Nat} {whole : Str} (hw : ¬ "\r\r\n".toList <:+: whole) (nc keep : Bool) :
    ∀ {d : Document}, DocRun total whole d → SettledDoc nc keep d
  | _, .mk (ns := ns) h1 h2 h3 => by
    refine ⟨?_, NodesRun.settled hw nc keep ns h1⟩
    rintro f ⟨⟩
    exact settled_of_infix (Run.infix h3) hw
theorem NodesRun.settled {total : Nat} {whole : Str} (hw : ¬ "\r\r\n".toList <:+: whole) (nc keep : Bool) :
    ∀ (ns : List Node), (∀ n ∈ ns, NodeRun total whole n) → SettledNodes nc keep ns
  | [], _ => trivial
  | n :: ns, h => ⟨NodeRun.settled hw nc keep (h n (by simp)), NodesRun.settled hw nc keep ns fun n hn => h n (by simp [hn])⟩
end

/-- **C13** for every parsed document whose text has no doubled carriage return
before a line feed: a second `autoformat` changes nothing. -/
theorem C13_parsed {s : Str} {d : Document} (h : Document.parse s = .ok d) (hs : ¬ "\r\r\n".toList <:+: s)
    (c : FormatConfig) (hi : AllWs c.indent) : (d.autoformatConfig c).autoformatConfig c = d.autoformatConfig c := by
  rw [C13_exact c hi]
  obtain ⟨b, d0, _, h1, rfl⟩ := parse_run h
  have := h1.settled hs c.noComments c.entryKeep
  cases d0 with
  | mk ns f sp =>
    cases f with
    | none => exact this
    | some f =>
      refine ⟨?_, this.2⟩
      rintro f' ⟨⟩
      exact this.1 f rfl

/-- A text with Windows line ends, comments, children and an unusual number meets
the hypotheses. -/
example : (∃ d, Document.parse "// c\r\na 0x1 {\r\n  b // d\r\n}\r\n// e\r\n// f\r\n".toList = .ok d) ∧
    ¬ "\r\r\n".toList <:+: "// c\r\na 0x1 {\r\n  b // d\r\n}\r\n// e\r\n// f\r\n".toList := by
  refine ⟨?_, ?_⟩
  · obtain ⟨d, h, _⟩ := ParseResult.holds_ok (r := Document.parse "// c\r\na 0x1 {\r\n  b // d\r\n}\r\n// e\r\n// f\r\n".toList)
      (f := fun _ => true) (by krfl)
    exact ⟨d, h⟩
  · rintro ⟨a, b, e⟩
    have := containsStr_append a "\r\r\n".toList b
    rw [← List.append_assoc, e] at this
    exact absurd this (by decide)

/-- C13 is violated by an indent that is not white space: the second run takes the
indent written by the first one for a comment. -/
theorem C13_violated_indent : ∃ (c : FormatConfig) (s : Str) (d : Document), Document.parse s = .ok d ∧
    (d.autoformatConfig c).display ≠ ((d.autoformatConfig c).autoformatConfig c).display := by
  obtain ⟨d, h1, h2⟩ := ParseResult.holds_ok (r := Document.parse "a {b;}".toList)
    (f := fun d : Document => decide ((d.autoformatConfig (FormatConfig.builder.setIndent ['-'])).display = "a {-\n-b\n}\n".toList) &&
      decide (((d.autoformatConfig (FormatConfig.builder.setIndent ['-'])).autoformatConfig (FormatConfig.builder.setIndent ['-'])).display = "a {--\n-\n--\n-b\n}\n".toList)) (by krfl)
  simp only [Bool.and_eq_true, decide_eq_true_eq] at h2
  refine ⟨FormatConfig.builder.setIndent ['-'], _, d, h1, ?_⟩
  rw [h2.1, h2.2]
  decide

/-- C13 is violated also by a parsed document. -/
theorem C13_violated_parsed : ∃ (s : Str) (d : Document), Document.parse s = .ok d ∧
    d.autoformat.display ≠ d.autoformat.autoformat.display := by
  obtain ⟨d, h1, h2⟩ := ParseResult.holds_ok (r := Document.parse "a\n//b\r\r\n//c".toList)
    (f := fun d : Document => decide (d.autoformat.display = "a\n //b\r\n//c\n".toList) &&
      decide (d.autoformat.autoformat.display = "a\n //b\n//c\n".toList)) (by krfl)
  simp only [Bool.and_eq_true, decide_eq_true_eq] at h2
  refine ⟨_, d, h1, ?_⟩
  rw [h2.1, h2.2]
  decide

end

end Kdl
