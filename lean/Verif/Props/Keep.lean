import Verif.Spec.Keep
import Verif.Props.Format
import Verif.Lemmas.KernelRfl
import Verif.Props.Reprint
/-
C15: what autoformat keeps of the comments of a document.
-/

namespace Kdl

open Spec

/-! ### Visible lines -/

theorem pieces_ne (s : Str) : pieces s ≠ [] := by
  cases s with
  | nil => simp [pieces]
  | cons c s =>
    unfold pieces
    split
    · simp
    · split <;> simp

theorem pieces_line (l s : Str) (h : '\n' ∉ l) : pieces (l ++ '\n' :: s) = l :: pieces s := by
  induction l with
  | nil => simp [pieces]
  | cons c l ih =>
    have hc : c ≠ '\n' := fun e => h (by simp [e])
    rw [List.cons_append, pieces, if_neg hc, ih fun e => h (List.mem_cons_of_mem _ e)]

theorem pieces_last (l : Str) (h : '\n' ∉ l) : pieces l = [l] := by
  induction l with
  | nil => rfl
  | cons c l ih =>
    have hc : c ≠ '\n' := fun e => h (by simp [e])
    rw [pieces, if_neg hc, ih fun e => h (List.mem_cons_of_mem _ e)]

theorem exists_line (s : Str) : '\n' ∉ s ∨ ∃ l r, '\n' ∉ l ∧ s = l ++ '\n' :: r := by
  induction s with
  | nil => exact .inl (by simp)
  | cons c s ih =>
    by_cases hc : c = '\n'
    · exact .inr ⟨[], s, by simp, by simp [hc]⟩
    · rcases ih with h | ⟨l, r, h, rfl⟩
      · exact .inl (by simp [h, Ne.symm hc])
      · exact .inr ⟨c :: l, r, by simp [h, Ne.symm hc], rfl⟩

theorem visible_content (s : Str) : visible s = content s := by
  generalize hn : s.length = n
  induction n using Nat.strongRecOn generalizing s with
  | ind n ih =>
    rcases exists_line s with h | ⟨l, r, h, rfl⟩
    · rw [content_last _ h, visible, pieces_last _ h]
      by_cases ht : trim s = [] <;> simp [ht]
    · rw [content_line _ _ h, ← ih r.length (by rw [← hn]; simp; omega) r rfl, visible, pieces_line _ _ h]
      by_cases ht : trim l = [] <;> simp [ht, visible]

theorem visible_ws_append {w s : Str} (h : AllWs w) : visible (w ++ s) = visible s := by
  rw [visible_content, visible_content, content_ws_prefix _ _ h]

theorem visible_append_ws {w s : Str} (h : AllWs w) : visible (s ++ w) = visible s := by
  rw [visible_content, visible_content, content_ws_suffix _ _ h]

theorem visible_trim (s : Str) : visible (trim s) = visible s := by
  rw [visible_content, visible_content, content_trim]

theorem visible_leading {c : FormatConfig} (hi : AllWs c.indent) (hn : c.noComments = false) (s : Str) :
    visible (autoformatLeading c s) = visible s := by
  rw [visible_content, visible_content, autoformatLeading_content c hi hn]

theorem stripCr_subset {l : Str} {x : Char} (h : x ∈ stripCr l) : x ∈ l := by
  unfold stripCr at h
  split at h
  · next e =>
    have := congrArg List.reverse e
    rw [List.reverse_reverse] at this
    rw [this]
    simpa using .inl (by simpa using h)
  · exact h

theorem lines_no_lf (s : Str) : ∀ l ∈ lines s, '\n' ∉ l := by
  generalize hn : s.length = n
  induction n using Nat.strongRecOn generalizing s with
  | ind n ih =>
    rcases exists_line s with h | ⟨l, r, h, rfl⟩
    · intro l hl
      by_cases hs : s = []
      · subst hs; cases hl
      · rw [lines_last s h hs] at hl
        rwa [List.mem_singleton.mp hl]
    · rw [lines_line _ _ h]
      intro x hx
      rcases List.mem_cons.mp hx with rfl | hx
      · intro e
        exact h (stripCr_subset e)
      · exact ih r.length (by rw [← hn]; simp; omega) r rfl x hx

theorem content_writeLines (ls : List Str) (h : ∀ l ∈ ls, '\n' ∉ l) : content (writeLines ls) = contentLines ls := by
  induction ls with
  | nil => rfl
  | cons l ls ih =>
    have e : writeLines (l :: ls) = l ++ '\n' :: writeLines ls := by simp [writeLines]
    rw [e, content_line _ _ (h l (by simp)), contentLines_cons, ih fun x hx => h x (List.mem_cons_of_mem _ hx)]

theorem visible_trailing (s : Str) : visible (autoformatTrailing false s) = visible s := by
  unfold autoformatTrailing
  split
  · rfl
  · simp only [Bool.not_false, Bool.and_true, Bool.not_eq_true', List.isEmpty_eq_false_iff]
    split
    · rw [visible_ws_append (by split <;> decide), visible_content, content_writeLines _ (lines_no_lf _),
        visible_content, ← content_trim s]
      rfl
    · next h =>
      have h : trim s = [] := Decidable.not_not.mp h
      rw [← visible_trim s, h]

theorem visible_nodeTrailing {c : FormatConfig} (hn : c.noComments = false) (s : Str) :
    visible (autoformatNodeTrailing c s) = visible s := by
  have key : visible (trim (autoformatTrailing c.noComments s)) = visible s := by
    rw [visible_trim, hn, visible_trailing]
  unfold autoformatNodeTrailing
  simp only
  split
  · split
    · next h _ => exact h ▸ key
    · next h _ =>
      rw [← key, h]
      exact visible_ws_append (w := [' ']) (by decide)
  · next h => exact h ▸ key

/-! ### Texts one after the other -/

theorem Spec.Threaded.prepend {ts : List Str} {s : Str} (p : Str) (h : Threaded ts s) : Threaded ts (p ++ s) := by
  cases h with
  | nil => exact .nil _
  | cons q t h =>
    have := Threaded.cons (p ++ q) t h
    simpa only [List.append_assoc] using this

theorem Spec.Threaded.append {ts us : List Str} {a b : Str} (h : Threaded ts a) (k : Threaded us b) : Threaded (ts ++ us) (a ++ b) := by
  induction h with
  | nil s => exact k.prepend s
  | cons p t _ ih =>
    have := Threaded.cons p t ih
    simpa only [List.append_assoc, List.cons_append] using this

theorem Spec.Threaded.one (t : Str) : Threaded [t] t := by
  have := Threaded.cons [] t (.nil [])
  simpa only [List.nil_append, List.append_nil] using this

theorem Spec.Threaded.affix {ts : List Str} {s : Str} (p q : Str) (h : Threaded ts s) : Threaded ts (p ++ s ++ q) := by
  have := (h.prepend p).append (.nil q)
  rwa [List.append_nil] at this

/-- A text contains texts with the given visible lines, one after the other. -/
def Carries (vs : List (List Str)) (s : Str) : Prop := ∃ ts, Threaded ts s ∧ ts.map visible = vs

theorem Carries.nil (s : Str) : Carries [] s := ⟨[], .nil s, rfl⟩
theorem Carries.one {t : Str} {v : List Str} (h : visible t = v) : Carries [v] t := ⟨[t], .one t, by simp [h]⟩
theorem Carries.append {us vs : List (List Str)} {a b : Str} : Carries us a → Carries vs b → Carries (us ++ vs) (a ++ b) := by
  rintro ⟨ts, h1, rfl⟩ ⟨us, h2, rfl⟩
  exact ⟨_, h1.append h2, by simp⟩
theorem Carries.affix {vs : List (List Str)} {s : Str} (p q : Str) : Carries vs s → Carries vs (p ++ s ++ q) := by
  rintro ⟨ts, h1, rfl⟩
  exact ⟨_, h1.affix p q, rfl⟩
theorem Carries.prepend {vs : List (List Str)} {s : Str} (p : Str) : Carries vs s → Carries vs (p ++ s) := by
  rintro ⟨ts, h1, rfl⟩
  exact ⟨_, h1.prepend p, rfl⟩

section
variable [FloatIO]

mutual
theorem keepNode : ∀ {c : FormatConfig} (_ : c.noComments = false) (_ : AllWs c.indent) (n : Node) (i : Nat),
    Carries ((nodeNotes n).map visible) ((n.autoformatConfig c).stringify i)
  | c, hn, hi, .mk ty name es ch f s, i => by
    rw [Node.autoformatConfig, nodeNotes]
    simp only [Node.stringify]
    have h := keepOpt hn hi ch [' '] i
    cases f with
    | none =>
      simp only [Option.toList_none, List.map_nil, List.flatMap_nil, List.nil_append, List.append_nil, autoformatNodeFmt]
      have h := keepOpt hn hi ch [] i
      exact h.affix _ _
    | some f =>
      simp only [Option.toList_some, List.map_cons, List.map_nil, List.flatMap_cons, List.flatMap_nil, List.append_nil,
        autoformatNodeFmt, List.map_append, List.append_assoc]
      refine Carries.append (.one (visible_leading hi hn _)) ?_
      refine Carries.prepend _ (Carries.prepend _ (Carries.prepend _ (Carries.append h ?_)))
      refine Carries.append (us := [_]) (.one (by rw [hn]; exact visible_trailing _)) ?_
      exact Carries.prepend _ (.one (visible_nodeTrailing hn _))
theorem keepOpt : ∀ {c : FormatConfig} (_ : c.noComments = false) (_ : AllWs c.indent) (ch : Option Document) (b : Str) (i : Nat),
    Carries ((optNotes ch).map visible) (childrenStringify (autoformatOptDoc c ch) b i)
  | _, _, _, none, _, _ => .nil _
  | c, hn, hi, some d, b, i => by
    obtain ⟨ns, f, s⟩ := d
    rw [optNotes, docNotes, autoformatOptDoc, childrenStringify]
    simp only [List.append_assoc]
    refine Carries.prepend _ (Carries.prepend _ (Carries.prepend _ ?_))
    rw [← List.append_nil (List.map _ _)]
    refine Carries.append ?_ (.nil _)
    simp only [Document.autoformatConfig, Document.stringify, Document.nodes, Document.format, List.map_append]
    have h := keepNodes (c := { c with indentLevel := c.indentLevel + 1 }) hn hi ns (i + 4)
    cases f with
    | none => simpa using h
    | some f =>
      simp only [Option.toList_some, List.map_cons, List.map_nil, Option.map_some, autoformatChildFmt, autoformatDocFmt]
      refine Carries.append (us := [_] ++ _) (Carries.append (us := [_]) (.one ?_) h) (.one ?_)
      · rw [visible_append_ws (by decide), visible_trim]; exact visible_leading (c := { c with indentLevel := c.indentLevel + 1 }) hi hn _
      · have h1 : AllWs (if (!ns.isEmpty) = true then [] else ['\n']) := by split <;> decide
        rw [visible_append_ws (indentText_ws c hi), visible_append_ws h1, hn, visible_trailing]
theorem keepNodes : ∀ {c : FormatConfig} (_ : c.noComments = false) (_ : AllWs c.indent) (ns : List Node) (i : Nat),
    Carries ((nodesNotes ns).map visible) (nodesStringify (autoformatNodes c ns) i)
  | _, _, _, [], _ => .nil _
  | c, hn, hi, n :: ns, i => by
    rw [nodesNotes, autoformatNodes, nodesStringify, List.map_append]
    exact (keepNode hn hi n i).append (keepNodes hn hi ns i)
end

/-- **C15**, partial: formatting a document keeps the comments between its nodes. The texts
before the first and after the last node of each block, before each node, and before and
after each terminator appear in the printed text in the same order, up to blank lines and
the white space around each line. Missing: the comments elsewhere, which are lost
(`C15_violated_*`). -/
theorem C15_between_nodes_partial {c : FormatConfig} (hn : c.noComments = false) (hi : AllWs c.indent) (d : Document) :
    ∃ ts, Threaded ts (d.autoformatConfig c).display ∧ ts.map visible = (docNotes d).map visible := by
  obtain ⟨ns, f, s⟩ := d
  show Carries _ _
  rw [docNotes, Document.display, Document.autoformatConfig]
  simp only [Document.stringify, List.map_append]
  have h := keepNodes hn hi ns 0
  cases f with
  | none => simpa using h
  | some f =>
    simp only [Option.toList_some, List.map_cons, List.map_nil, Option.map_some, autoformatDocFmt, List.append_assoc]
    refine Carries.append (.one ?_) (Carries.append h (.one ?_))
    · rw [visible_leading hi hn]
    · have h1 : AllWs (if (!ns.isEmpty) = true then [] else ['\n']) := by split <;> decide
      rw [visible_append_ws h1, hn, visible_trailing]

/-- **C15**, partial, for one node. -/
theorem C15_node_partial {c : FormatConfig} (hn : c.noComments = false) (hi : AllWs c.indent) (n : Node) :
    ∃ ts, Threaded ts (n.autoformatConfig c).display ∧ ts.map visible = (nodeNotes n).map visible :=
  keepNode hn hi n 0

/-- A parsed document with a comment in each of these places, and what is printed. -/
theorem C15_example : ∃ d, Document.parse "// top\n// two\na /* b */\n  /* c */ d { // in\n /* e */ f /* g */\n// bottom\n}\n// end".toList = .ok d ∧
    (docNotes d).flatMap visible = ["// top", "// two", "/* b */", "/* c */", "// in", "/* e */", "/* g */", "// bottom", "// end"].map String.toList ∧
    d.autoformat.display = "// top\n// two\na /* b */\n\n/* c */\nd {\n    // in\n    /* e */\n    f /* g */\n\n // bottom\n}\n // end\n".toList := by
  obtain ⟨d, h1, h2⟩ := ParseResult.holds_ok
    (r := Document.parse "// top\n// two\na /* b */\n  /* c */ d { // in\n /* e */ f /* g */\n// bottom\n}\n// end".toList)
    (f := fun d : Document => decide ((docNotes d).flatMap visible =
        ["// top", "// two", "/* b */", "/* c */", "// in", "/* e */", "/* g */", "// bottom", "// end"].map String.toList ∧
      d.autoformat.display = "// top\n// two\na /* b */\n\n/* c */\nd {\n    // in\n    /* e */\n    f /* g */\n\n // bottom\n}\n // end\n".toList))
    (by krfl)
  exact ⟨d, h1, of_decide_eq_true h2⟩

/-- C15 is violated: a single-line comment at the end of a line is lost. -/
theorem C15_violated_line : ∃ d, Document.parse "a 1 // b\nc\n".toList = .ok d ∧ d.autoformat.display = "a 1\nc\n".toList := by
  obtain ⟨d, h1, h2⟩ := ParseResult.holds_ok (r := Document.parse "a 1 // b\nc\n".toList)
    (f := fun d : Document => decide (d.autoformat.display = "a 1\nc\n".toList)) (by krfl)
  exact ⟨d, h1, of_decide_eq_true h2⟩

/-- C15 is violated: a comment before an entry is lost. -/
theorem C15_violated_entry : ∃ d, Document.parse "a /* b */ 1\n".toList = .ok d ∧ d.autoformat.display = "a 1\n".toList := by
  obtain ⟨d, h1, h2⟩ := ParseResult.holds_ok (r := Document.parse "a /* b */ 1\n".toList)
    (f := fun d : Document => decide (d.autoformat.display = "a 1\n".toList)) (by krfl)
  exact ⟨d, h1, of_decide_eq_true h2⟩

/-- C15 is violated: a comment before a block is lost. -/
theorem C15_violated_block : ∃ d, Document.parse "a /* b */ {}\n".toList = .ok d ∧ d.autoformat.display = "a {\n\n}\n".toList := by
  obtain ⟨d, h1, h2⟩ := ParseResult.holds_ok (r := Document.parse "a /* b */ {}\n".toList)
    (f := fun d : Document => decide (d.autoformat.display = "a {\n\n}\n".toList)) (by krfl)
  exact ⟨d, h1, of_decide_eq_true h2⟩

end

end Kdl
