import Verif.Spec.Layout
import Verif.Props.Settle
import Verif.Lemmas.Pale
import Verif.Lemmas.FloatShow
/-
C83: formatted text has the layout of its data.
-/

namespace Kdl
open Spec

/-! ### Specification -/

/-- The text is removed, or white space. -/
def Spec.Gone (noComments : Bool) (t : Str) : Prop := noComments = true ∨ AllWs t

mutual
/-- Nothing but white space between the parts of a node (or it is removed), no part
without format record, and no entry that is marked to be kept. -/
def Spec.BareNode (noComments : Bool) : Node → Prop
  | .mk _ _ es c f _ =>
      (∃ f', f = some f' ∧ Gone noComments f'.leading ∧ Gone noComments f'.beforeTerminator ∧
        Gone noComments f'.trailing ∧ ∀ t, f'.terminator = '\n' :: t → t = []) ∧
      (∀ e ∈ es, ∀ f, e.format = some f → f.autoformatKeep = false) ∧ BareOpt noComments c
/-- As above, for children. -/
def Spec.BareOpt (noComments : Bool) : Option Document → Prop
  | none => True
  | some d => BareDoc noComments d
/-- As above, for documents. -/
def Spec.BareDoc (noComments : Bool) : Document → Prop
  | .mk ns f _ => (∃ f', f = some f' ∧ Gone noComments f'.leading ∧ Gone noComments f'.trailing) ∧ BareNodes noComments ns
/-- As above, for lists of nodes. -/
def Spec.BareNodes (noComments : Bool) : List Node → Prop
  | [] => True
  | n :: ns => BareNode noComments n ∧ BareNodes noComments ns
end

section
variable [FloatIO]

/-- An entry, its annotation replaced by the text of the annotation. -/
def Spec.spellEntry (e : Entry) : SEntry Value := ⟨e.ty.map Ident.display, e.name.map Ident.value, e.value⟩

mutual
/-- Data of a node, with the texts of the annotations of entries. -/
def Spec.spelledNode : Node → SNode Value
  | .mk ty name es c _ _ => .mk (ty.map Ident.value) name.value (es.map spellEntry) (spelledOpt c)
/-- As above, for children. -/
def Spec.spelledOpt : Option Document → Option (List (SNode Value))
  | none => none
  | some d => some (spelledDoc d)
/-- As above, for documents. -/
def Spec.spelledDoc : Document → List (SNode Value)
  | .mk ns _ _ => spelledNodes ns
/-- As above, for lists of nodes. -/
def Spec.spelledNodes : List Node → List (SNode Value)
  | [] => []
  | n :: ns => spelledNode n :: spelledNodes ns
end

/-! ### Proof -/

omit [FloatIO] in
theorem autoformatLeading_gone {c : FormatConfig} {t : Str} (h : Gone c.noComments t) : autoformatLeading c t = indentText c := by
  rcases h with h | h
  · exact autoformatLeading_nc c h t
  · unfold autoformatLeading
    rw [trim_ws_all h]
    simp

omit [FloatIO] in
theorem autoformatTrailing_gone {nc : Bool} {t : Str} (h : Gone nc t) : autoformatTrailing nc t = [] := by
  rcases h with rfl | h
  · exact autoformatTrailing_nc t
  · unfold autoformatTrailing
    rw [trim_ws_all h]
    by_cases e : t = []
    · simp [e]
    · simp [e]

theorem entries_laid (c : FormatConfig) (hk : c.entryKeep = false) : ∀ es : List Entry,
    (∀ e ∈ es, ∀ f, e.format = some f → f.autoformatKeep = false) →
    displayEntries (es.map (autoformatEntry c)) = (es.map spellEntry).flatMap (layEntry id)
  | [], _ => rfl
  | e :: es, h => by
    have h1 : (autoformatEntry c e).format = none := by
      simp only [autoformatEntry, hk, Bool.false_eq_true, if_false]
      exact C37_not_kept e (h e (by simp))
    have h2 : (autoformatEntry c e).ty = e.ty := by simp [autoformatEntry, hk, Entry.autoformat]
    have h3 : (autoformatEntry c e).name = e.name.map Ident.autoformat := by simp [autoformatEntry, hk, Entry.autoformat]
    have h4 : (autoformatEntry c e).value = e.value := by simp [autoformatEntry, hk, Entry.autoformat]
    rw [List.map_cons, displayEntries, entries_laid c hk es fun e he => h e (by simp [he]), List.map_cons, List.flatMap_cons]
    congr 1
    unfold Entry.display Entry.displayKey Entry.displayTy layEntry spellEntry
    rw [h1, h2, h3, h4]
    cases e.ty <;> cases e.name <;>
      simp [layTy, plainName, Ident.autoformat, Ident.display]

omit [FloatIO] in
theorem unlines_append (a b : List Str) : unlines (a ++ b) = unlines a ++ unlines b := by simp [unlines]
omit [FloatIO] in
theorem unlines_cons (a : Str) (b : List Str) : unlines (a :: b) = a ++ '\n' :: unlines b := by simp [unlines]
omit [FloatIO] in
theorem unlines_nil : unlines [] = [] := rfl

mutual
theorem node_laid : ∀ (c : FormatConfig), AllWs c.indent → c.entryKeep = false → ∀ (n : Node) (i : Nat), BareNode c.noComments n →
    (n.autoformatConfig c).stringify i = unlines (nodeLines id c.indent c.indentLevel (spelledNode n))
  | c, hi, hk, .mk ty name es ch f sp, i, h => by
    obtain ⟨⟨f', rfl, h1, h2, h3, h4⟩, h5, h6⟩ := h
    have hc := optDoc_laid c hi hk ch i h6
    have hf : autoformatNodeFmt c (some f') = { f' with
        leading := indentText c, beforeTerminator := [], terminator := ['\n'], trailing := [], beforeChildren := [' '] } := by
      have ht : (autoformatNodeFmt c (some f')).terminator = ['\n'] := by
        unfold autoformatNodeFmt
        dsimp only
        split
        · rename_i t e; rw [e, h4 t e]
        · rfl
      unfold autoformatNodeFmt at ht ⊢
      dsimp only at ht ⊢
      rw [ht, autoformatLeading_gone h1, autoformatTrailing_gone h2, autoformatNodeTrailing, autoformatTrailing_gone h3]
      rfl
    simp only [Node.autoformatConfig, Node.stringify, hf, entries_laid c hk es h5, hc, spelledNode]
    cases ty <;> cases ch <;>
      simp [spelledOpt, nodeLines, unlines, layHead, layTy, plainName, Ident.clearFormat, Ident.display, indentText, deep]
theorem optDoc_laid : ∀ (c : FormatConfig), AllWs c.indent → c.entryKeep = false → ∀ (d : Option Document) (i : Nat), BareOpt c.noComments d →
    childrenStringify (autoformatOptDoc c d) [' '] i = (match spelledOpt d with
      | none => []
      | some ns => [' ', '{', '\n'] ++ unlines (bodyLines id c.indent (c.indentLevel + 1) ns) ++ deep c.indent c.indentLevel ++ ['}'])
  | c, hi, hk, none, i, _ => by simp [autoformatOptDoc, childrenStringify, spelledOpt]
  | c, hi, hk, some (.mk ns f sp), i, h => by
    obtain ⟨⟨f', rfl, h1, h2⟩, h3⟩ := h
    have hn := nodes_laid { c with indentLevel := c.indentLevel + 1 } hi hk ns (i + 4) h3
    have h1' : autoformatLeading { c with indentLevel := c.indentLevel + 1 } f'.leading =
      indentText { c with indentLevel := c.indentLevel + 1 } := autoformatLeading_gone h1
    simp only [autoformatOptDoc, Document.autoformatConfig, Document.nodes, Document.format, Document.span, Option.map_some,
      childrenStringify, Document.stringify, autoformatChildFmt, autoformatDocFmt, h1', autoformatTrailing_gone h2, hn,
      trim_ws_all (indentText_ws { c with indentLevel := c.indentLevel + 1 } hi), spelledOpt, spelledDoc]
    cases ns with
    | nil => simp [spelledNodes, bodyLines, moreLines, unlines, indentText, deep]
    | cons n ns => simp [spelledNodes, bodyLines, moreLines, unlines, indentText, deep]
theorem nodes_laid : ∀ (c : FormatConfig), AllWs c.indent → c.entryKeep = false → ∀ (ns : List Node) (i : Nat), BareNodes c.noComments ns →
    nodesStringify (autoformatNodes c ns) i = unlines (moreLines id c.indent c.indentLevel (spelledNodes ns))
  | c, hi, hk, [], i, _ => rfl
  | c, hi, hk, n :: ns, i, h => by
    rw [autoformatNodes, nodesStringify, node_laid c hi hk n i h.1, nodes_laid c hi hk ns i h.2, spelledNodes, moreLines, unlines_append]
end

mutual
theorem NodeRun.bare {total : Nat} {whole : Str} {nc : Bool} :
    ∀ {n : Node}, NodeRun total whole n → (nc = true ∨ ∀ t ∈ nodeDecor n, Unslashed t) → BareNode nc n
  | _, .mk (ch := ch) (f := f) h1 h2 h3 h4 h5 h6 h7 h8, hu => by
    refine ⟨⟨f, rfl, hu.imp_right fun hu => ?_, hu.imp_right fun hu => ?_, Or.inr (by rw [h7]; exact AllWs.nil), ?_⟩, ?_, ?_⟩
    · rcases h4 with ⟨s, r, _, h⟩ | h
      · exact leadingItems_pale h (hu _ (by simp [nodeDecor]))
      · rw [h]; exact AllWs.nil
    · obtain ⟨s, r, _, h⟩ := h6
      exact tailP_pale h (hu _ (by simp [nodeDecor]))
    · intro t ht
      obtain ⟨s, r, _, h⟩ := h6
      exact tailP_term h ht
    · intro e he f' hf'
      obtain ⟨s', r, _, h⟩ := h3 e he
      obtain ⟨g, hg, hk⟩ := nodeEntry_keep h
      rw [hf'] at hg
      cases hg
      exact hk
    · cases ch with
      | none => trivial
      | some d => exact DocRun.bare (h8 d rfl) (hu.imp_right fun hu t ht => hu t (by simp [nodeDecor, optDecor, ht]))
theorem DocRun.bare {total : Nat} {whole : Str} {nc : Bool} :
    ∀ {d : Document}, DocRun total whole d → (nc = true ∨ ∀ t ∈ docDecor d, Unslashed t) → BareDoc nc d
  | _, .mk (ns := ns) h1 h2 h3, hu => by
    refine ⟨⟨_, rfl, hu.imp_right fun hu => ?_, hu.imp_right fun hu => ?_⟩,
      NodesRun.bare ns h1 (hu.imp_right fun hu t ht => hu t (by simp [docDecor, ht]))⟩
    · rcases h2 with ⟨s, r, _, h⟩ | h
      · exact leadingItems_pale h (hu _ (by simp [docDecor]))
      · rw [h]; exact AllWs.nil
    · obtain ⟨s, r, _, h⟩ := h3
      exact leadingItems_pale h (hu _ (by simp [docDecor]))
theorem NodesRun.bare {total : Nat} {whole : Str} {nc : Bool} :
    ∀ (ns : List Node), (∀ n ∈ ns, NodeRun total whole n) → (nc = true ∨ ∀ t ∈ nodesDecor ns, Unslashed t) → BareNodes nc ns
  | [], _, _ => trivial
  | n :: ns, h, hu => ⟨NodeRun.bare (h n (by simp)) (hu.imp_right fun hu t ht => hu t (by simp [nodesDecor, ht])),
      NodesRun.bare ns (fun n hn => h n (by simp [hn])) (hu.imp_right fun hu t ht => hu t (by simp [nodesDecor, ht]))⟩
end

mutual
theorem spelledNode_plain : ∀ n : Node, (∀ e ∈ nodeEntries n, ∀ t, e.ty = some t → t.display = plainName t.value) →
    ∀ (ind : Str) (k : Nat), nodeLines id ind k (spelledNode n) = nodeLines plainName ind k (semNode id n)
  | .mk ty name es ch f sp, h, ind, k => by
    have he : (es.map spellEntry).flatMap (layEntry id) = (es.map (semEntry id)).flatMap (layEntry plainName) := by
      rw [List.flatMap_map, List.flatMap_map]
      rw [List.flatMap_def, List.flatMap_def]
      congr 1
      refine List.map_congr_left fun e he => ?_
      have := h e (by simp [nodeEntries, he])
      cases ht : e.ty with
      | none => simp [layEntry, spellEntry, semEntry, ht, layTy]
      | some t => simp [layEntry, spellEntry, semEntry, ht, layTy, this t ht]
    cases ch with
    | none => simp only [spelledNode, spelledOpt, semNode, semOptDoc, nodeLines, layHead, he]
    | some d =>
      obtain ⟨ns, f', sp'⟩ := d
      have := spelledNodes_plain ns (fun e he => h e (by simp [nodeEntries, optEntries, docEntries, he])) ind (k + 1)
      simp only [spelledNode, spelledOpt, spelledDoc, semNode, semOptDoc, semDoc, nodeLines, layHead, he, this.1]
theorem spelledNodes_plain : ∀ ns : List Node, (∀ e ∈ nodesEntries ns, ∀ t, e.ty = some t → t.display = plainName t.value) →
    ∀ (ind : Str) (k : Nat), bodyLines id ind k (spelledNodes ns) = bodyLines plainName ind k (semNodes id ns) ∧
      moreLines id ind k (spelledNodes ns) = moreLines plainName ind k (semNodes id ns)
  | [], _, _, _ => ⟨rfl, rfl⟩
  | n :: ns, h, ind, k => by
    have h1 := spelledNode_plain n (fun e he => h e (by simp [nodesEntries, he])) ind k
    have h2 := spelledNodes_plain ns (fun e he => h e (by simp [nodesEntries, he])) ind k
    simp only [spelledNodes, semNodes, bodyLines, moreLines, h1, h2.2, and_self]
end

/-! ### Theorems -/

/-- **C83** for documents: a document with nothing but white space between its parts
(or formatted without comments) is formatted to the lines of its data, except that
annotations of entries keep their text and that the text begins with the indentation
of the whole document, in addition to that of its first line. -/
theorem C83_text {c : FormatConfig} (hi : AllWs c.indent) (hk : c.entryKeep = false) {d : Document} (h : BareDoc c.noComments d) :
    (d.autoformatConfig c).display =
      deep c.indent c.indentLevel ++ unlines (bodyLines id c.indent c.indentLevel (spelledDoc d)) := by
  obtain ⟨ns, f, sp⟩ := d
  obtain ⟨⟨f', rfl, h1, h2⟩, h3⟩ := h
  have hn := nodes_laid c hi hk ns 0 h3
  unfold Document.display
  simp only [Document.autoformatConfig, Option.map_some, Document.stringify, autoformatDocFmt, autoformatLeading_gone h1,
    autoformatTrailing_gone h2, hn, spelledDoc]
  cases ns with
  | nil => simp [spelledNodes, bodyLines, moreLines, unlines, indentText, deep]
  | cons n ns => simp [spelledNodes, bodyLines, moreLines, unlines, indentText, deep]

/-- **C83** for nodes, whose first line is not indented twice. -/
theorem C83_node {c : FormatConfig} (hi : AllWs c.indent) (hk : c.entryKeep = false) {n : Node} (h : BareNode c.noComments n) :
    (n.autoformatConfig c).display = unlines (nodeLines id c.indent c.indentLevel (spelledNode n)) :=
  node_laid c hi hk n 0 h

/-- Neither a slash nor a backslash nor a byte order mark: no comment, no slashdash
and no line continuation. -/
def Spec.Quiet (t : Str) : Prop := '/' ∉ t ∧ '\\' ∉ t ∧ Char.ofNat 0xFEFF ∉ t

/-- **C83**: parsed documents meet the condition if they are formatted without comments,
or if there is nothing but white space between their nodes. -/
theorem C83_parsed {s : Str} {d : Document} (h : Document.parse s = .ok d) {nc : Bool}
    (hc : nc = true ∨ ∀ t ∈ docDecor d, Quiet t) : BareDoc nc d := by
  obtain ⟨b, d0, hb, h1, rfl⟩ := parse_run h
  obtain ⟨ns, f, sp⟩ := d0
  obtain ⟨f', rfl⟩ : ∃ f', f = some f' := by cases h1; exact ⟨_, rfl⟩
  have hb' : nc = true ∨ b = [] := hc.imp_right fun hc => by
    rcases hb with hb | ⟨r, hb⟩
    · exact hb
    · obtain ⟨e, _, hb⟩ := takeP_inv Strict.bom.sfx hb
      have e' := lit_ok.mp hb
      rw [e] at e'
      have : b = [Char.ofNat 0xFEFF] := List.append_cancel_right e'
      subst this
      have := (hc (Char.ofNat 0xFEFF :: f'.leading) (by simp [Document.prependLeading, Document.format, docDecor])).2.2
      exact absurd (List.mem_cons_self ..) this
  rcases hb' with rfl | rfl
  · obtain ⟨_, h3⟩ := h1.bare (nc := true) (Or.inl rfl)
    exact ⟨⟨_, rfl, Or.inl rfl, Or.inl rfl⟩, h3⟩
  · exact h1.bare (hc.imp_right fun hc t ht => ⟨(hc t ht).1, (hc t ht).2.1⟩)

/-- **C83**: parsed nodes meet the condition if they are formatted without comments. -/
theorem C83_parsed_node {s : Str} {n : Node} (h : Node.parse s = .ok n) : BareNode true n := by
  have h := tryParse_ok.mp h
  unfold paddedNode at h
  obtain ⟨_, s0, h0, h⟩ := bind_ok.mp h
  obtain ⟨n', s1, h1, h⟩ := bind_ok.mp h
  obtain ⟨_, s2, _, h⟩ := bind_ok.mp h
  obtain ⟨t, s3, _, h⟩ := bind_ok.mp h
  obtain ⟨_, s4, _, h⟩ := bind_ok.mp h
  obtain ⟨rfl, _⟩ := pure_ok.mp h
  obtain ⟨_, rfl⟩ := here_ok.mp h0
  have h2 := (RunsBelow.nodeF (k := s0.length + 1) RunsBelow.baseNode (Nat.lt_succ_self _) (Sub.refl _) h1).bare
    (nc := true) (Or.inl rfl)
  obtain ⟨ty, name, es, ch, f, sp⟩ := n'
  obtain ⟨⟨f', rfl, _, _, _, h3⟩, h4, h5⟩ := h2
  exact ⟨⟨_, rfl, Or.inl rfl, Or.inl rfl, Or.inl rfl, h3⟩, h4, h5⟩

/-- **C83**, partial. Full statement: without the conditions on the indentation of the
whole document and on the annotations of entries (`C83_exact`, `C83_violated_level`,
`C83_violated_annotation`). A parsed text whose annotations of entries are written
plainly is formatted to the lines of its data, if it is formatted without comments or
has nothing but white space between its nodes. -/
theorem C83_partial {s : Str} {d : Document} (h : Document.parse s = .ok d) {c : FormatConfig}
    (hc : c.noComments = true ∨ ∀ t ∈ docDecor d, Quiet t)
    (hi : AllWs c.indent) (hk : c.entryKeep = false) (hl : c.indentLevel = 0)
    (ht : ∀ e ∈ docEntries d, ∀ t, e.ty = some t → t.display = plainName t.value) :
    (d.autoformatConfig c).display = unlines (bodyLines plainName c.indent 0 (semDoc id d)) := by
  rw [C83_text hi hk (C83_parsed h hc), hl]
  obtain ⟨ns, f, sp⟩ := d
  rw [spelledDoc, semDoc, (spelledNodes_plain ns ht c.indent 0).1]
  rfl

/-- **C83**, partial, for nodes, indented to any level. -/
theorem C83_node_partial {s : Str} {n : Node} (h : Node.parse s = .ok n) {c : FormatConfig} (hn : c.noComments = true)
    (hi : AllWs c.indent) (hk : c.entryKeep = false)
    (ht : ∀ e ∈ nodeEntries n, ∀ t, e.ty = some t → t.display = plainName t.value) :
    (n.autoformatConfig c).display = unlines (nodeLines plainName c.indent c.indentLevel (semNode id n)) := by
  rw [C83_node hi hk (by rw [hn]; exact C83_parsed_node h), spelledNode_plain n ht]

/-- **C83**, the condition on the indentation: as in `C83_partial`, the text is that of
the lines of the data at the level asked for if and only if there is no indentation at
that level; otherwise the first line has it twice. -/
theorem C83_exact {s : Str} {d : Document} (h : Document.parse s = .ok d) {c : FormatConfig}
    (hc : c.noComments = true ∨ ∀ t ∈ docDecor d, Quiet t)
    (hi : AllWs c.indent) (hk : c.entryKeep = false)
    (ht : ∀ e ∈ docEntries d, ∀ t, e.ty = some t → t.display = plainName t.value) :
    (d.autoformatConfig c).display = unlines (bodyLines plainName c.indent c.indentLevel (semDoc id d)) ↔
      c.indentLevel = 0 ∨ c.indent = [] := by
  rw [C83_text hi hk (C83_parsed h hc)]
  obtain ⟨ns, f, sp⟩ := d
  rw [spelledDoc, semDoc, (spelledNodes_plain ns ht c.indent c.indentLevel).1]
  simp only [List.append_left_eq_self, deep, List.flatten_eq_nil_iff, List.mem_replicate]
  constructor
  · intro h
    by_cases e : c.indentLevel = 0
    · exact Or.inl e
    · exact Or.inr (h _ ⟨e, rfl⟩)
  · rintro (e | e) l ⟨h1, rfl⟩
    · exact absurd e h1
    · exact e

/-- Texts with the same data are formatted to the same text, if the annotations of
entries have the same text. -/
theorem C83_same {s s' : Str} {d d' : Document} (h : Document.parse s = .ok d) (h' : Document.parse s' = .ok d')
    (hd : spelledDoc d = spelledDoc d') {c : FormatConfig} (hn : c.noComments = true)
    (hi : AllWs c.indent) (hk : c.entryKeep = false) :
    (d.autoformatConfig c).display = (d'.autoformatConfig c).display := by
  rw [C83_text hi hk (C83_parsed h (Or.inl hn)), C83_text hi hk (C83_parsed h' (Or.inl hn)), hd]

/-! ### Lines are lines -/

omit [FloatIO] in
theorem isDigit_notNl {c : Char} (h : IsDigit 10 c) : c ≠ '\n' := by
  rintro rfl
  obtain ⟨d, h, _⟩ := h
  rw [show digit '\n' = none by decide] at h
  cases h

omit [FloatIO] in
theorem writeString_notNl (s : Str) : '\n' ∉ writeString s := by
  unfold writeString
  split
  · rename_i h
    simp only [isPlainIdent, Bool.and_eq_true, Bool.not_eq_true', List.any_eq_false] at h
    intro hm
    exact h.2.1.1.1 _ hm (by decide)
  · intro hm
    simp only [List.cons_append, List.mem_cons, List.mem_append, List.mem_flatMap, List.not_mem_nil, or_false] at hm
    rcases hm with h | ⟨c, _, h⟩ | h
    · exact absurd h (by decide)
    · unfold escapeChar at h
      split at h
      · next hc =>
        rcases hc with rfl | rfl <;> exact absurd h (by decide)
      · repeat' split at h
        all_goals first
          | exact absurd h (by decide)
          | (simp only [List.mem_cons, List.not_mem_nil, or_false] at h; exact absurd h.symm (by assumption))
    · exact absurd h (by decide)

omit [FloatIO] in
theorem floatShape_notNl {t : Str} (h : FloatShape t) : '\n' ∉ t := by
  obtain ⟨sg, ip, fp, ex, h1, h2, h3, h4, _, rfl⟩ := h
  have hd : ∀ {ds : Str}, SmallDigits ds → '\n' ∉ ds := fun h hm => isDigit_notNl (h.2.2 _ hm) rfl
  simp only [List.mem_append, not_or]
  refine ⟨⟨⟨?_, hd h2⟩, ?_⟩, ?_⟩
  · rcases h1 with rfl | rfl <;> decide
  · rcases h3 with rfl | ⟨ds, h, rfl⟩
    · simp
    · simp [hd h]
  · rcases h4 with rfl | ⟨es, ds, h5, h, rfl⟩
    · simp
    · rcases h5 with rfl | rfl <;> simp [hd h]

theorem display_notNl [LawfulFloatIO] (v : Value) : '\n' ∉ v.display := by
  cases v with
  | string s => exact writeString_notNl s
  | integer i =>
    have h := (showNat_digits i.val.natAbs).1
    have hn : '\n' ∉ showNat i.val.natAbs := fun hm => isDigit_notNl (h _ hm) rfl
    simp only [Value.display, showInt]
    split
    · simp [hn]
    · exact hn
  | float x =>
    simp only [Value.display]
    split
    · decide
    · split
      · decide
      · split
        · decide
        · next h1 h2 h3 => exact floatShape_notNl (LawfulFloatIO.shape x (F64.finite_of (by simpa using h1) (by simpa using h2) (by simpa using h3)))
  | bool b => cases b <;> simp [Value.display]
  | null => simp [Value.display]

omit [FloatIO] in
theorem layTy_notNl {q : Str → Str} (hq : ∀ t, '\n' ∉ q t) (t : Option Str) : '\n' ∉ layTy q t := by
  cases t with
  | none => simp [layTy]
  | some t => simp [layTy, hq]

theorem layHead_notNl [LawfulFloatIO] {ind : Str} (hi : '\n' ∉ ind) (k : Nat) (ty : Option Str) (name : Str) (es : List (SEntry Value)) :
    '\n' ∉ layHead plainName ind k ty name es := by
  have hp : ∀ t, '\n' ∉ plainName t := fun t => display_notNl _
  have hd : '\n' ∉ deep ind k := by simp [deep, hi]
  have he : '\n' ∉ es.flatMap (layEntry plainName) := by
    simp only [List.mem_flatMap, not_exists, not_and]
    intro e _
    unfold layEntry
    cases e.name <;> simp [layTy_notNl hp, display_notNl, hp]
  simp [layHead, hd, layTy_notNl hp, hp, he]

mutual
theorem nodeLines_notNl [LawfulFloatIO] {ind : Str} (hi : '\n' ∉ ind) : ∀ (k : Nat) (n : SNode Value), ∀ l ∈ nodeLines plainName ind k n, '\n' ∉ l
  | k, .mk ty name es none => by
    simpa [nodeLines] using layHead_notNl hi k ty name es
  | k, .mk ty name es (some ns) => by
    have h1 := layHead_notNl hi k ty name es
    have hd : '\n' ∉ deep ind k := by simp [deep, hi]
    have h2 := (bodyLines_notNl hi (k + 1) ns).1
    intro l hl
    simp only [nodeLines, List.cons_append, List.mem_cons, List.mem_append, List.not_mem_nil, or_false] at hl
    rcases hl with rfl | hl | rfl
    · simp [h1]
    · exact h2 l hl
    · simp [hd]
theorem bodyLines_notNl [LawfulFloatIO] {ind : Str} (hi : '\n' ∉ ind) : ∀ (k : Nat) (ns : List (SNode Value)),
    (∀ l ∈ bodyLines plainName ind k ns, '\n' ∉ l) ∧ ∀ l ∈ moreLines plainName ind k ns, '\n' ∉ l
  | k, [] => by simp [bodyLines, moreLines]
  | k, n :: ns => by
    have h1 := nodeLines_notNl hi k n
    have h2 := (bodyLines_notNl hi k ns).2
    simp only [bodyLines, moreLines, List.mem_append]
    exact ⟨fun l hl => hl.elim (h1 l) (h2 l), fun l hl => hl.elim (h1 l) (h2 l)⟩
end

/-- **C83**: no line of the layout contains a line feed, so that the lines are the lines
of the text. -/
theorem C83_lines [LawfulFloatIO] {ind : Str} (hi : '\n' ∉ ind) (k : Nat) (ns : List (SNode Value)) :
    ∀ l ∈ bodyLines plainName ind k ns, '\n' ∉ l := (bodyLines_notNl hi k ns).1

/-! ### Examples -/

/-- A text with comments, a slashdashed node, blank lines, an empty block, an unusual
number and needless quotes meets the conditions for formatting without comments. -/
theorem C83_example : ∃ d, Document.parse "// c\n\"node\"   \"a b\"  k=(t)0x10 /-1 {b;\n\n c {}\n}; /-d\n".toList = .ok d ∧
    (∀ e ∈ docEntries d, ∀ t, e.ty = some t → t.display = plainName t.value) ∧
    d.autoformatNoComments.display = "node \"a b\" k=(t)16 {\n    b\n    c {\n\n    }\n}\n".toList := by
  obtain ⟨d, h1, h2⟩ := ParseResult.holds_ok
    (r := Document.parse "// c\n\"node\"   \"a b\"  k=(t)0x10 /-1 {b;\n\n c {}\n}; /-d\n".toList)
    (f := fun d : Document => (docEntries d).all (fun e => match e.ty with
        | none => true
        | some t => decide (t.display = plainName t.value)) &&
      decide (d.autoformatNoComments.display = "node \"a b\" k=(t)16 {\n    b\n    c {\n\n    }\n}\n".toList)) (by krfl)
  simp only [Bool.and_eq_true, decide_eq_true_eq, List.all_eq_true] at h2
  refine ⟨d, h1, ?_, h2.2⟩
  intro e he t ht
  have := h2.1 e he
  rw [ht] at this
  exact of_decide_eq_true this

instance (t : Str) : Decidable (Quiet t) := inferInstanceAs (Decidable (_ ∧ _ ∧ _))

/-- A text without comments, but with slashes in a string, meets the conditions for
formatting with comments. -/
theorem C83_example_default : ∃ d, Document.parse "a  \"//\"{ b;\r\n }\n\nc".toList = .ok d ∧
    (∀ t ∈ docDecor d, Quiet t) ∧ d.autoformat.display = "a \"//\" {\n    b\n}\nc\n".toList := by
  obtain ⟨d, h1, h2⟩ := ParseResult.holds_ok (r := Document.parse "a  \"//\"{ b;\r\n }\n\nc".toList)
    (f := fun d : Document => decide ((∀ t ∈ docDecor d, Quiet t) ∧
      d.autoformat.display = "a \"//\" {\n    b\n}\nc\n".toList)) (by krfl)
  exact ⟨d, h1, of_decide_eq_true h2⟩

/-- C83 is violated: a document that is to be indented by one level gets its first line
indented by two. -/
theorem C83_violated_level : ∃ d, Document.parse "a\nb\n".toList = .ok d ∧
    (d.autoformatConfig (FormatConfig.builder.setIndentLevel 1)).display = "        a\n    b\n".toList := by
  obtain ⟨d, h1, h2⟩ := ParseResult.holds_ok (r := Document.parse "a\nb\n".toList)
    (f := fun d : Document => decide
      ((d.autoformatConfig (FormatConfig.builder.setIndentLevel 1)).display = "        a\n    b\n".toList)) (by krfl)
  exact ⟨d, h1, of_decide_eq_true h2⟩

/-- C83 is violated: `a ("t")1` and `a (t)1` have the same data, and are formatted
differently; for nodes, `("t")a` and `(t)a` are not. -/
theorem C83_violated_annotation : (∃ d d', Document.parse "a (\"t\")1".toList = .ok d ∧ Document.parse "a (t)1".toList = .ok d' ∧
      d.autoformat.display = "a (\"t\")1\n".toList ∧ d'.autoformat.display = "a (t)1\n".toList) ∧
    ∃ d, Document.parse "(\"t\")a".toList = .ok d ∧ d.autoformat.display = "(t)a\n".toList := by
  obtain ⟨d, h1, h2⟩ := ParseResult.holds_ok (r := Document.parse "a (\"t\")1".toList)
    (f := fun d : Document => decide (d.autoformat.display = "a (\"t\")1\n".toList)) (by krfl)
  obtain ⟨d', h3, h4⟩ := ParseResult.holds_ok (r := Document.parse "a (t)1".toList)
    (f := fun d : Document => decide (d.autoformat.display = "a (t)1\n".toList)) (by krfl)
  obtain ⟨d'', h5, h6⟩ := ParseResult.holds_ok (r := Document.parse "(\"t\")a".toList)
    (f := fun d : Document => decide (d.autoformat.display = "(t)a\n".toList)) (by krfl)
  exact ⟨⟨d, d', h1, h3, of_decide_eq_true h2, of_decide_eq_true h4⟩, d'', h5, of_decide_eq_true h6⟩
end
end Kdl
