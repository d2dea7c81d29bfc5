import Verif.Model.V1Fmt
import Verif.Props.V1
/-
`autoformat` with the feature `v1`: C75.
-/

namespace Kdl
open Spec
variable [FloatIO]

/-! ### C75 -/

section
variable {α : Type} (g : Value → α)

theorem semEntry_autoformatV1 (c : FormatConfig) (e : Entry) :
    semEntry g (autoformatEntryV1 c e) = semEntry g e := by
  unfold autoformatEntryV1
  split
  all_goals
    cases h : e.name <;> simp [semEntry, Entry.autoformatV1, Entry.keepFormat, Ident.autoformat, h]

mutual
theorem semNode_autoformatV1 : ∀ (c : FormatConfig) (n : Node), semNode g (n.autoformatConfigV1 c) = semNode g n
  | c, .mk ty name entries children format span => by
    simp only [Node.autoformatConfigV1, semNode, optTy_clear, List.map_map, semOptDoc_autoformatV1 c children]
    congr 1
    apply List.map_congr_left
    intro e _; exact semEntry_autoformatV1 g c e
theorem semOptDoc_autoformatV1 : ∀ (c : FormatConfig) (d : Option Document), semOptDoc g (autoformatOptDocV1 c d) = semOptDoc g d
  | c, none => by simp [autoformatOptDocV1]
  | c, some (.mk ns f s) => by
    have := semDoc_autoformatV1 { c with indentLevel := c.indentLevel + 1 } (.mk ns f s)
    simp only [Document.autoformatConfigV1, semDoc] at this
    simp only [autoformatOptDocV1, Document.autoformatConfigV1, semOptDoc, Document.nodes, semDoc, this]
theorem semDoc_autoformatV1 : ∀ (c : FormatConfig) (d : Document), semDoc g (d.autoformatConfigV1 c) = semDoc g d
  | c, .mk ns f s => by simp only [Document.autoformatConfigV1, semDoc, semNodes_autoformatV1 c ns]
theorem semNodes_autoformatV1 : ∀ (c : FormatConfig) (ns : List Node), semNodes g (autoformatNodesV1 c ns) = semNodes g ns
  | c, [] => by simp [autoformatNodesV1]
  | c, n :: ns => by simp only [autoformatNodesV1, semNodes, semNode_autoformatV1 c n, semNodes_autoformatV1 c ns]
end

end

/-- **C75**, data: with the feature `v1`, formatting with any configuration keeps the data. -/
theorem C75_data (c : FormatConfig) (d : Document) (n : Node) :
    semDoc id (d.autoformatConfigV1 c) = semDoc id d ∧ semNode id (n.autoformatConfigV1 c) = semNode id n :=
  ⟨semDoc_autoformatV1 id c d, semNode_autoformatV1 id c n⟩

/-- **C75**, entries that are not kept: the result is the one without the feature. -/
theorem C75_not_kept (e : Entry) (h : ∀ f, e.format = some f → f.autoformatKeep = false) : e.autoformatV1 = e.autoformat := by
  cases hf : e.format with
  | none => simp [Entry.autoformat, Entry.autoformatV1, hf]
  | some f => simp [Entry.autoformat, Entry.autoformatV1, hf, h f hf]

/-- **C75**, kept entries: the space in front stays, the text of the value is the one that
`ensure_v2` gives, and nothing else is recorded. -/
theorem C75_kept {e : Entry} {f : EntryFmt} (h : e.format = some f) :
    ∃ f2 f', e.ensureV2.format = some f2 ∧ e.keepFormat.autoformatV1.format = some f' ∧ f'.leading = f.leading ∧
      f'.valueRepr = f2.valueRepr ∧ f'.trailing = [] ∧ f'.afterKey = [] ∧ f'.afterEq = [] ∧ f'.afterTy = [] := by
  have h2 : ∃ f2, e.ensureV2.format = some f2 ∧ f2.leading = f.leading := by
    rw [Entry.ensureV2, h]
    exact ⟨_, by rfl, by rfl⟩
  obtain ⟨f2, h2, h3⟩ := h2
  have h4 : e.keepFormat.ensureV2.format = some { f2 with autoformatKeep := true } := by
    rw [Entry.ensureV2, h] at h2
    rw [Entry.ensureV2, Entry.keepFormat, h]
    cases h2
    rfl
  refine ⟨f2, { valueRepr := f2.valueRepr, leading := f2.leading }, h2, ?_, h3, rfl, rfl, rfl, rfl, rfl⟩
  unfold Entry.autoformatV1
  rw [h4]
  simp [Entry.keepFormat, h]

mutual
/-- No entry is marked to be kept. -/
inductive UnkeptNode : Node → Prop
  | mk {ty : Option Ident} {name : Ident} {es : List Entry} {ch : Option Document} {f : Option NodeFmt} {sp : Span}
      (he : ∀ e ∈ es, ∀ f, e.format = some f → f.autoformatKeep = false) (hc : ∀ d, ch = some d → UnkeptDoc d) :
      UnkeptNode (.mk ty name es ch f sp)
inductive UnkeptDoc : Document → Prop
  | mk {ns : List Node} {f : Option DocFmt} {sp : Span} (h : ∀ n ∈ ns, UnkeptNode n) : UnkeptDoc (.mk ns f sp)
end

mutual
theorem unkept_node : ∀ (c : FormatConfig), c.entryKeep = false → ∀ {n : Node}, UnkeptNode n → n.autoformatConfigV1 c = n.autoformatConfig c
  | c, hk, .mk ty name es ch f sp, h => by
    obtain ⟨he, hc⟩ := h
    have h1 : es.map (autoformatEntryV1 c) = es.map (autoformatEntry c) := by
      apply List.map_congr_left
      intro e hm
      simp only [autoformatEntryV1, autoformatEntry, hk, if_false, Bool.false_eq_true]
      exact C75_not_kept e (he e hm)
    simp only [Node.autoformatConfigV1, Node.autoformatConfig, h1, unkept_opt c hk hc]
theorem unkept_opt : ∀ (c : FormatConfig), c.entryKeep = false → ∀ {o : Option Document}, (∀ d, o = some d → UnkeptDoc d) →
    autoformatOptDocV1 c o = autoformatOptDoc c o
  | c, hk, none, _ => by simp only [autoformatOptDocV1, autoformatOptDoc]
  | c, hk, some d, h => by
    simp only [autoformatOptDocV1, autoformatOptDoc, unkept_doc { c with indentLevel := c.indentLevel + 1 } hk (h d rfl)]
theorem unkept_doc : ∀ (c : FormatConfig), c.entryKeep = false → ∀ {d : Document}, UnkeptDoc d → d.autoformatConfigV1 c = d.autoformatConfig c
  | c, hk, .mk ns f sp, h => by
    obtain ⟨h⟩ := h
    simp only [Document.autoformatConfigV1, Document.autoformatConfig, unkept_nodes c hk h]
theorem unkept_nodes : ∀ (c : FormatConfig), c.entryKeep = false → ∀ {ns : List Node}, (∀ n ∈ ns, UnkeptNode n) →
    autoformatNodesV1 c ns = autoformatNodes c ns
  | c, hk, [], _ => by simp only [autoformatNodesV1, autoformatNodes]
  | c, hk, n :: ns, h => by
    simp only [autoformatNodesV1, autoformatNodes, unkept_node c hk (h n (by simp)), unkept_nodes c hk (ns := ns) fun m hm => h m (by simp [hm])]
end

/-- **C75**, documents without kept entries: the feature makes no difference. -/
theorem C75_unkept {c : FormatConfig} (hk : c.entryKeep = false) {d : Document} (h : UnkeptDoc d) :
    d.autoformatConfigV1 c = d.autoformatConfig c := unkept_doc c hk h

mutual
/-- All entries of a node, at any depth, in the order of the text. -/
def Spec.entriesNode : Node → List Entry
  | .mk _ _ es ch _ _ => es ++ Spec.entriesOpt ch
def Spec.entriesOpt : Option Document → List Entry
  | none => []
  | some (.mk ns _ _) => Spec.entriesNodes ns
def Spec.entriesNodes : List Node → List Entry
  | [] => []
  | n :: ns => Spec.entriesNode n ++ Spec.entriesNodes ns
end

mutual
theorem everyV1_node (c : FormatConfig) : ∀ (k : Nat) (n : Node), entriesNode (n.autoformatConfigV1 { c with indentLevel := k }) =
    (entriesNode n).map fun e => (if c.entryKeep then e.keepFormat else e).autoformatV1
  | k, .mk ty name es ch f sp => by
    simp only [Node.autoformatConfigV1, entriesNode, List.map_append, everyV1_opt c k ch]
    rfl
theorem everyV1_opt (c : FormatConfig) : ∀ (k : Nat) (o : Option Document),
    entriesOpt (autoformatOptDocV1 { c with indentLevel := k } o) =
      (entriesOpt o).map fun e => (if c.entryKeep then e.keepFormat else e).autoformatV1
  | k, none => by simp only [autoformatOptDocV1, entriesOpt, List.map_nil]
  | k, some (.mk ns f sp) => by
    simp only [autoformatOptDocV1, Document.autoformatConfigV1, Document.nodes, entriesOpt, everyV1_nodes c (k + 1) ns]
theorem everyV1_nodes (c : FormatConfig) : ∀ (k : Nat) (ns : List Node),
    entriesNodes (autoformatNodesV1 { c with indentLevel := k } ns) =
      (entriesNodes ns).map fun e => (if c.entryKeep then e.keepFormat else e).autoformatV1
  | k, [] => by simp only [autoformatNodesV1, entriesNodes, List.map_nil]
  | k, n :: ns => by
    simp only [autoformatNodesV1, entriesNodes, List.map_append, everyV1_node c k n, everyV1_nodes c k ns]
end

/-- **C75**, at any depth: formatting a document formats each of its entries, in the same way and in place; what it
does to one of them is said by `C75_not_kept` and `C75_kept`. -/
theorem C75_everywhere (c : FormatConfig) (d : Document) : entriesNodes (d.autoformatConfigV1 c).nodes =
    (entriesNodes d.nodes).map fun e => (if c.entryKeep then e.keepFormat else e).autoformatV1 := by
  obtain ⟨ns, f, sp⟩ := d
  simpa only [Document.autoformatConfigV1, Document.nodes] using everyV1_nodes c c.indentLevel ns

/-- **C75**, the texts of kept v1 strings, partial. Full statement: a kept entry has a v2
text of its value afterwards. Missing: the v1 texts that are not `V1Good`, as for
`ensure_v2`. -/
theorem C75_v1_string_partial {t w : Str} (h : V1Good t w) {e : Entry} {f : EntryFmt} (hv : e.value = .string w) (hf : e.format = some f)
    (ht : f.valueRepr = t) :
    ∃ f', e.keepFormat.autoformatV1.format = some f' ∧ StrText f'.valueRepr w ∧ f'.leading = f.leading := by
  obtain ⟨_, f1, h1, h2, _⟩ := C70_string_partial h hv hf ht
  obtain ⟨f2, f', h3, h4, h5, h6, _⟩ := C75_kept hf
  rw [h1] at h3
  cases h3
  exact ⟨f', h4, by rw [h6]; exact h2, h5⟩

/-- **C75**, the texts of kept v1 keywords and numbers: keywords get their sign, numbers
keep their text. -/
theorem C75_v1_other {e : Entry} {f : EntryFmt} (hf : e.format = some f) :
    (∀ b, e.value = .bool b → ∃ f', e.keepFormat.autoformatV1.format = some f' ∧
      f'.valueRepr = (if b then "#true".toList else "#false".toList)) ∧
    (e.value = .null → ∃ f', e.keepFormat.autoformatV1.format = some f' ∧ f'.valueRepr = "#null".toList) ∧
    (∀ i, e.value = .integer i → ∃ f', e.keepFormat.autoformatV1.format = some f' ∧ f'.valueRepr = f.valueRepr) ∧
    (∀ x, e.value = .float x → ∃ f', e.keepFormat.autoformatV1.format = some f' ∧ f'.valueRepr = f.valueRepr) := by
  refine ⟨?_, ?_, ?_, ?_⟩
  · intro b hv
    exact ⟨{ valueRepr := _, leading := f.leading }, by simp [Entry.keepFormat, Entry.autoformatV1, Entry.ensureV2, hf, hv]; rfl, by cases b <;> rfl⟩
  · intro hv
    exact ⟨{ valueRepr := _, leading := f.leading }, by simp [Entry.keepFormat, Entry.autoformatV1, Entry.ensureV2, hf, hv]; rfl, rfl⟩
  · intro i hv
    exact ⟨{ valueRepr := _, leading := f.leading }, by simp [Entry.keepFormat, Entry.autoformatV1, Entry.ensureV2, hf, hv], rfl⟩
  · intro x hv
    exact ⟨{ valueRepr := _, leading := f.leading }, by simp [Entry.keepFormat, Entry.autoformatV1, Entry.ensureV2, hf, hv], rfl⟩

/-- **C75**, the texts of kept v2 values, partial: a text that survives `ensure_v2` is
replaced by a text of the same value. Missing: the texts that do not, see the violation. -/
theorem C75_v2_value_partial {s : Str} {e : Entry} (h : Entry.parse s = .ok e) (hk : V2Entry e) :
    ∃ f', e.keepFormat.autoformatV1.format = some f' ∧ ValText f'.valueRepr e.value := by
  obtain ⟨⟨f, hf, h0⟩, _⟩ := entryParse_reval h
  obtain ⟨t, e1, ht⟩ := ensureV2_reval hf h0 hk
  obtain ⟨f2, f', h3, h4, h5, h6, _⟩ := C75_kept hf
  refine ⟨f', h4, ?_⟩
  have : f2.valueRepr = t := by
    rw [e1] at h3
    simp only [Entry.reval, hf, Option.map_some, Option.some.injEq] at h3
    rw [← h3]
  rwa [h6, this]

/-- **C75**, the texts of kept strings, decided: a kept v1 string has a v2 text of itself
afterwards exactly if it is `V1Good`, and a kept v2 value has a text of itself exactly if its
text survives `ensure_v2`. -/
theorem C75_exact :
    (∀ {t w : Str}, V1Str t w → ∀ {e : Entry} {f : EntryFmt}, e.value = .string w → e.format = some f → f.valueRepr = t →
      ((∃ f', e.keepFormat.autoformatV1.format = some f' ∧ StrText f'.valueRepr w) ↔ V1Good t w)) ∧
    (∀ {s : Str} {e : Entry}, Entry.parse s = .ok e →
      ((∃ f', e.keepFormat.autoformatV1.format = some f' ∧ ValText f'.valueRepr e.value) ↔ V2Entry e)) := by
  constructor
  · intro t w h e f hv hf ht
    refine ⟨?_, fun hg => ?_⟩
    · rintro ⟨f', h1, h2⟩
      obtain ⟨f1, h3, hx⟩ := C70_string_exact h hv hf ht
      obtain ⟨f2, f3, h4, h5, _, h6, _⟩ := C75_kept hf
      rw [h1] at h5
      cases h5
      rw [h3] at h4
      cases h4
      exact hx.mp (h6 ▸ h2)
    · obtain ⟨f', h1, h2, _⟩ := C75_v1_string_partial hg hv hf ht
      exact ⟨f', h1, h2⟩
  · intro s e h
    refine ⟨?_, C75_v2_value_partial h⟩
    rintro ⟨f', h1, h2⟩
    obtain ⟨⟨f, hf, _⟩, _⟩ := entryParse_reval h
    obtain ⟨f2, f3, h4, h5, _, h6, _⟩ := C75_kept hf
    rw [h1] at h5
    cases h5
    exact (C35_entry_exact h).mp ⟨f2, h4, h6 ▸ h2⟩

/-- The v1 string `r#"a b"#` and the v1 keyword `true`, kept and formatted, and an entry
parsed from v2 text whose text survives. -/
theorem C75_example :
    (∃ e : Entry, e.value = .string "a b".toList ∧ (∃ f, e.format = some f ∧ V1Good f.valueRepr "a b".toList) ∧
      e.keepFormat.autoformatV1.display = " #\"a b\"#".toList) ∧
    (∃ e : Entry, e.format.isSome ∧ e.value = .bool true ∧ e.keepFormat.autoformatV1.display = " #true".toList) ∧
    (∃ e, Entry.parse " /*c*/ k= #\"d e\"#".toList = .ok e ∧ e.keepFormat.autoformatV1.display = " /*c*/ k=#\"d e\"#".toList ∧
      e.autoformatV1.display = "k=\"d e\"".toList) := by
  refine ⟨⟨⟨none, .string "a b".toList, none, some { valueRepr := "r#\"a b\"#".toList, leading := [' '] }, .zero⟩, rfl,
    ⟨_, rfl, ?_⟩, by krfl⟩, ⟨⟨none, .bool true, none, some { valueRepr := "true".toList, leading := [' '] }, .zero⟩, rfl, rfl, by krfl⟩, ?_⟩
  · refine .raw (n := 0) (w := "a b".toList) ⟨by decide, ?_, by decide⟩ (by decide) (signedPoint_head (by decide) (by decide))
    rw [← contains_iff]
    decide
  · obtain ⟨e, h1, h2⟩ := ParseResult.holds_ok (r := Entry.parse " /*c*/ k= #\"d e\"#".toList)
      (f := fun e : Entry => decide (e.keepFormat.autoformatV1.display = " /*c*/ k=#\"d e\"#".toList ∧
        e.autoformatV1.display = "k=\"d e\"".toList)) (by krfl)
    exact ⟨e, h1, of_decide_eq_true h2⟩

/-- **C75 violated**: with the feature `v1`, the empty string of the v2 document `a ""` is
lost when its entries are kept, and the string `"-.5"` becomes text that is rejected; without the
feature both are kept. -/
theorem C75_violated : ∃ c : FormatConfig, c.entryKeep = true ∧
    (∃ d, Document.parse "a \"\"".toList = .ok d ∧ (d.autoformatConfigV1 c).display = "a \n".toList ∧
      (d.autoformatConfig c).display = "a \"\"\n".toList ∧ Gives "a \n".toList [.mk none ['a'] [] none]) ∧
    (∃ d, Document.parse "a \"-.5\"".toList = .ok d ∧ (d.autoformatConfigV1 c).display = "a -.5\n".toList ∧
      (d.autoformatConfig c).display = "a \"-.5\"\n".toList ∧ Document.parse "a -.5\n".toList = .err) := by
  refine ⟨{ FormatConfig.default with entryKeep := true }, rfl, ?_, ?_⟩
  · obtain ⟨d, h1, h2⟩ := ParseResult.holds_ok (r := Document.parse "a \"\"".toList)
      (f := fun d : Document => decide ((d.autoformatConfigV1 { FormatConfig.default with entryKeep := true }).display = "a \n".toList ∧
        (d.autoformatConfig { FormatConfig.default with entryKeep := true }).display = "a \"\"\n".toList)) (by krfl)
    obtain ⟨h2, h3⟩ := of_decide_eq_true h2
    exact ⟨d, h1, h2, h3, gives_iff.mpr (by krfl)⟩
  · obtain ⟨d, h1, h2⟩ := ParseResult.holds_ok (r := Document.parse "a \"-.5\"".toList)
      (f := fun d : Document => decide ((d.autoformatConfigV1 { FormatConfig.default with entryKeep := true }).display = "a -.5\n".toList ∧
        (d.autoformatConfig { FormatConfig.default with entryKeep := true }).display = "a \"-.5\"\n".toList)) (by krfl)
    obtain ⟨h2, h3⟩ := of_decide_eq_true h2
    exact ⟨d, h1, h2, h3, by krfl⟩

end Kdl
