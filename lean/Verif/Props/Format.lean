import Verif.Lemmas.Text
import Verif.Lemmas.Entries
import Verif.Spec.Data
import Verif.Props.Equality
/-
Properties of the formatting operations: C12, C13, C16, C17, C35 (data), C37.
-/

namespace Kdl
open Spec

variable {α : Type} (g : Value → α)

/-! ### C12 -/

theorem semEntry_autoformat (c : FormatConfig) (e : Entry) :
    semEntry g (autoformatEntry c e) = semEntry g e := by
  unfold autoformatEntry
  split
  all_goals
    cases h : e.name <;> simp [semEntry, Entry.autoformat, Entry.keepFormat, Ident.autoformat, h]

theorem optTy_clear (t : Option Ident) :
    (t.map Ident.clearFormat).map Ident.value = t.map Ident.value := by cases t <;> rfl

mutual
theorem semNode_autoformat : ∀ (c : FormatConfig) (n : Node),
    semNode g (n.autoformatConfig c) = semNode g n
  | c, .mk ty name entries children format span => by
    simp only [Node.autoformatConfig, semNode, optTy_clear, List.map_map,
      semOptDoc_autoformat c children]
    congr 1
    apply List.map_congr_left
    intro e _; exact semEntry_autoformat g c e
theorem semOptDoc_autoformat : ∀ (c : FormatConfig) (d : Option Document),
    semOptDoc g (autoformatOptDoc c d) = semOptDoc g d
  | c, none => by simp [autoformatOptDoc]
  | c, some (.mk ns f s) => by
    have := semDoc_autoformat { c with indentLevel := c.indentLevel + 1 } (.mk ns f s)
    simp only [Document.autoformatConfig, semDoc] at this
    simp only [autoformatOptDoc, Document.autoformatConfig, semOptDoc, Document.nodes, semDoc, this]
theorem semDoc_autoformat : ∀ (c : FormatConfig) (d : Document),
    semDoc g (d.autoformatConfig c) = semDoc g d
  | c, .mk ns f s => by
    simp only [Document.autoformatConfig, semDoc, semNodes_autoformat c ns]
theorem semNodes_autoformat : ∀ (c : FormatConfig) (ns : List Node),
    semNodes g (autoformatNodes c ns) = semNodes g ns
  | c, [] => by simp [autoformatNodes]
  | c, n :: ns => by
    simp only [autoformatNodes, semNodes, semNode_autoformat c n, semNodes_autoformat c ns]
end

/-- C12: formatting a document with any configuration keeps its data. -/
theorem C12_autoformat_keeps_data (c : FormatConfig) (d : Document) :
    semDoc id (d.autoformatConfig c) = semDoc id d := semDoc_autoformat id c d

/-- C12 for nodes. -/
theorem C12_autoformat_node_keeps_data (c : FormatConfig) (n : Node) :
    semNode id (n.autoformatConfig c) = semNode id n := semNode_autoformat id c n

/-- C12 for the two shorthands. -/
theorem C12_shorthands (d : Document) :
    semDoc id d.autoformat = semDoc id d ∧ semDoc id d.autoformatNoComments = semDoc id d :=
  ⟨semDoc_autoformat id _ d, semDoc_autoformat id _ d⟩

/-! ### C17 -/

mutual
/-- No node's type annotation carries a textual representation. -/
def Spec.TysPlainNode : Node → Prop
  | .mk ty _ _ c _ _ => (∀ t, ty = some t → t.repr = none) ∧ TysPlainOpt c
/-- As above, for children. -/
def Spec.TysPlainOpt : Option Document → Prop
  | none => True
  | some d => TysPlainDoc d
/-- As above, for documents. -/
def Spec.TysPlainDoc : Document → Prop
  | .mk ns _ _ => TysPlainNodes ns
/-- As above, for lists of nodes. -/
def Spec.TysPlainNodes : List Node → Prop
  | [] => True
  | n :: ns => TysPlainNode n ∧ TysPlainNodes ns
end

theorem optIdentEq_clear {a b : Option Ident} (h : a.map Ident.value = b.map Ident.value) :
    optIdentEq (a.map Ident.clearFormat) (b.map Ident.clearFormat) = true := by
  cases a <;> cases b <;> simp_all [optIdentEq, Ident.eq, Ident.clearFormat]

theorem entriesEq_clear (hg : ∀ a b, g a = g b → a.eq b = true) (a b : List Entry)
    (h : a.map (semEntry g) = b.map (semEntry g)) :
    entriesEq (a.map Entry.clearFormat) (b.map Entry.clearFormat) = true := by
  induction a generalizing b with
  | nil => cases b <;> simp_all [entriesEq]
  | cons x a ih =>
    cases b with
    | nil => simp at h
    | cons y b =>
      simp only [List.map_cons, List.cons.injEq] at h
      simp only [List.map_cons, entriesEq, Bool.and_eq_true]
      refine ⟨?_, ih b h.2⟩
      have h1 := h.1
      simp only [semEntry, SEntry.mk.injEq] at h1
      rw [Entry.eq_iff]
      exact ⟨optIdentEq_clear h1.1, hg _ _ h1.2.2, optIdentEq_clear h1.2.1, rfl⟩

mutual
theorem clear_node_eq (hg : ∀ a b, g a = g b → a.eq b = true) : ∀ (a b : Node),
    semNode g a = semNode g b → TysPlainNode a → TysPlainNode b →
    a.clearFormatRecursive.eq b.clearFormatRecursive = true
  | .mk t n e c f s, .mk t' n' e' c' f' s' => by
    intro h ha hb
    simp only [semNode, SNode.mk.injEq] at h
    simp only [TysPlainNode] at ha hb
    obtain ⟨h1, h2, h3, h4⟩ := h
    simp only [Node.clearFormatRecursive, Node.eq, Bool.and_eq_true, beq_self_eq_true, and_true]
    refine ⟨⟨⟨?_, ?_⟩, entriesEq_clear g hg _ _ h3⟩, clear_opt_eq hg c c' h4 ha.2 hb.2⟩
    · cases t <;> cases t' <;> simp_all [optIdentEq, Ident.eq]
    · simp [Ident.eq, Ident.clearFormat, h2]
theorem clear_opt_eq (hg : ∀ a b, g a = g b → a.eq b = true) : ∀ (a b : Option Document),
    semOptDoc g a = semOptDoc g b → TysPlainOpt a → TysPlainOpt b →
    optDocEq (clearOptDoc a) (clearOptDoc b) = true
  | none, none => by simp [clearOptDoc, optDocEq]
  | none, some _ => by simp [semOptDoc]
  | some _, none => by simp [semOptDoc]
  | some a, some b => by
    intro h ha hb
    simp only [semOptDoc, Option.some.injEq] at h
    simp only [TysPlainOpt] at ha hb
    simp only [clearOptDoc, optDocEq]
    exact clear_doc_eq hg a b h ha hb
theorem clear_doc_eq (hg : ∀ a b, g a = g b → a.eq b = true) : ∀ (a b : Document),
    semDoc g a = semDoc g b → TysPlainDoc a → TysPlainDoc b →
    a.clearFormatRecursive.eq b.clearFormatRecursive = true
  | .mk n f s, .mk n' f' s' => by
    intro h ha hb
    simp only [semDoc] at h
    simp only [TysPlainDoc] at ha hb
    simp only [Document.clearFormatRecursive, Document.eq, Bool.and_eq_true, beq_self_eq_true,
      and_true]
    exact clear_nodes_eq hg n n' h ha hb
theorem clear_nodes_eq (hg : ∀ a b, g a = g b → a.eq b = true) : ∀ (a b : List Node),
    semNodes g a = semNodes g b → TysPlainNodes a → TysPlainNodes b →
    nodesEq (clearNodes a) (clearNodes b) = true
  | [], [] => by simp [clearNodes, nodesEq]
  | [], _ :: _ => by simp [semNodes]
  | _ :: _, [] => by simp [semNodes]
  | a :: as, b :: bs => by
    intro h ha hb
    simp only [semNodes, List.cons.injEq] at h
    simp only [TysPlainNodes] at ha hb
    simp only [clearNodes, nodesEq, Bool.and_eq_true]
    exact ⟨clear_node_eq hg a b h.1 ha.1 hb.1, clear_nodes_eq hg as bs h.2 ha.2 hb.2⟩
end

/-- C17, partial. Full statement: two documents with the same data (values may
be compared with `==`) are equal after `clear_format_recursive`. Missing: the
operation leaves the textual representation of a node's own type annotation in
place, so both documents are assumed to have none there (see the counterexample
below). -/
theorem C17_clear_format_canonical_partial (hg : ∀ a b, g a = g b → a.eq b = true)
    (a b : Document) (h : semDoc g a = semDoc g b) (ha : TysPlainDoc a) (hb : TysPlainDoc b) :
    a.clearFormatRecursive.eq b.clearFormatRecursive = true := clear_doc_eq g hg a b h ha hb

/-- The condition on the observation `g` is met by the values themselves. -/
example : ∀ a b : Value, id a = id b → a.eq b = true := by
  rintro a _ rfl; exact Value.eq_refl a

/-- Two documents with the same data and different formatting meet the
hypotheses. -/
example : let a : Document := .mk [.mk none ⟨['a'], some ['"', 'a', '"'], ⟨1, 3⟩⟩
      [⟨none, .null, none, some { valueRepr := "#null".toList, leading := [' '] }, ⟨4, 5⟩⟩]
      none (some { leading := [' '] }) ⟨0, 9⟩] (some { leading := ['\n'] }) ⟨0, 9⟩
    let b : Document := .mk [.mk none (.ofStr ['a']) [.new .null] none none .zero] none .zero
    semDoc id a = semDoc id b ∧ TysPlainDoc a ∧ TysPlainDoc b ∧ a.eq b = false := by
  refine ⟨by simp [semDoc, semNodes, semNode, semOptDoc, semEntry, Entry.new, Ident.ofStr], ?_, ?_,
    by simp [Document.eq]⟩ <;>
    simp [TysPlainDoc, TysPlainNodes, TysPlainNode, TysPlainOpt]

/-- C17 is violated: the type annotation of a node keeps its representation, so
`("t")a` and `(t)a` stay different. -/
theorem C17_violated : ∃ a b : Document, semDoc id a = semDoc id b ∧
    a.clearFormatRecursive.eq b.clearFormatRecursive = false := by
  refine ⟨.mk [.mk (some ⟨['t'], some ['"', 't', '"'], ⟨1, 3⟩⟩) (.ofStr ['a']) [] none none .zero]
      none .zero,
    .mk [.mk (some ⟨['t'], some ['t'], ⟨1, 1⟩⟩) (.ofStr ['a']) [] none none .zero] none .zero,
    by simp [semDoc, semNodes, semNode], by
      simp [Document.clearFormatRecursive, clearNodes, Node.clearFormatRecursive, Document.eq,
        nodesEq, Node.eq, optIdentEq, Ident.eq]⟩

mutual
/-- How the type annotations of a node and of the nodes below it are spelled, in the order of the
text; `none` for a node without annotation. -/
def Spec.spellNode : Node → List (Option (Option Str))
  | .mk ty _ _ c _ _ => ty.map Ident.repr :: spellOpt c
/-- As above, for children. -/
def Spec.spellOpt : Option Document → List (Option (Option Str))
  | none => []
  | some d => spellDoc d
/-- As above, for documents. -/
def Spec.spellDoc : Document → List (Option (Option Str))
  | .mk ns _ _ => spellNodes ns
/-- As above, for lists of nodes. -/
def Spec.spellNodes : List Node → List (Option (Option Str))
  | [] => []
  | n :: ns => spellNode n ++ spellNodes ns
end

mutual
theorem clear_node_iff (hg : ∀ a b, g a = g b → a.eq b = true) : ∀ (a b : Node),
    semNode g a = semNode g b → (spellNode a).length = (spellNode b).length ∧
    (a.clearFormatRecursive.eq b.clearFormatRecursive = true ↔ spellNode a = spellNode b)
  | .mk t n e c f s, .mk t' n' e' c' f' s' => by
    intro h
    simp only [semNode, SNode.mk.injEq] at h
    obtain ⟨h1, h2, h3, h4⟩ := h
    obtain ⟨hl, ho⟩ := clear_opt_iff hg c c' h4
    refine ⟨by simp [spellNode, hl], ?_⟩
    simp only [Node.clearFormatRecursive, Node.eq, Bool.and_eq_true, beq_self_eq_true, and_true,
      spellNode, List.cons.injEq, ho, entriesEq_clear g hg _ _ h3]
    have hn : n.clearFormat.eq n'.clearFormat = true := by simp [Ident.eq, Ident.clearFormat, h2]
    have ht : optIdentEq t t' = true ↔ t.map Ident.repr = t'.map Ident.repr := by
      cases t <;> cases t' <;> simp_all [optIdentEq, Ident.eq]
    rw [hn, ht]; simp
theorem clear_opt_iff (hg : ∀ a b, g a = g b → a.eq b = true) : ∀ (a b : Option Document),
    semOptDoc g a = semOptDoc g b → (spellOpt a).length = (spellOpt b).length ∧
    (optDocEq (clearOptDoc a) (clearOptDoc b) = true ↔ spellOpt a = spellOpt b)
  | none, none => by simp [clearOptDoc, optDocEq]
  | none, some _ => by simp [semOptDoc]
  | some _, none => by simp [semOptDoc]
  | some a, some b => by
    intro h
    simp only [semOptDoc, Option.some.injEq] at h
    simp only [spellOpt, clearOptDoc, optDocEq]
    exact clear_doc_iff hg a b h
theorem clear_doc_iff (hg : ∀ a b, g a = g b → a.eq b = true) : ∀ (a b : Document),
    semDoc g a = semDoc g b → (spellDoc a).length = (spellDoc b).length ∧
    (a.clearFormatRecursive.eq b.clearFormatRecursive = true ↔ spellDoc a = spellDoc b)
  | .mk n f s, .mk n' f' s' => by
    intro h
    simp only [semDoc] at h
    simp only [spellDoc, Document.clearFormatRecursive, Document.eq, Bool.and_eq_true,
      beq_self_eq_true, and_true]
    exact clear_nodes_iff hg n n' h
theorem clear_nodes_iff (hg : ∀ a b, g a = g b → a.eq b = true) : ∀ (a b : List Node),
    semNodes g a = semNodes g b → (spellNodes a).length = (spellNodes b).length ∧
    (nodesEq (clearNodes a) (clearNodes b) = true ↔ spellNodes a = spellNodes b)
  | [], [] => by simp [clearNodes, nodesEq]
  | [], _ :: _ => by simp [semNodes]
  | _ :: _, [] => by simp [semNodes]
  | a :: as, b :: bs => by
    intro h
    simp only [semNodes, List.cons.injEq] at h
    obtain ⟨l1, e1⟩ := clear_node_iff hg a b h.1
    obtain ⟨l2, e2⟩ := clear_nodes_iff hg as bs h.2
    refine ⟨by simp [spellNodes, l1, l2], ?_⟩
    simp only [clearNodes, nodesEq, Bool.and_eq_true, e1, e2, spellNodes]
    exact ⟨fun ⟨x, y⟩ => by rw [x, y], fun h => List.append_inj h l1⟩
end

/-- C17, exactly: two documents with the same data are equal after `clear_format_recursive` if and
only if the type annotations of their nodes are spelled alike. -/
theorem C17_exact (hg : ∀ a b, g a = g b → a.eq b = true) (a b : Document)
    (h : semDoc g a = semDoc g b) :
    a.clearFormatRecursive.eq b.clearFormatRecursive = true ↔ spellDoc a = spellDoc b :=
  (clear_doc_iff g hg a b h).2

/-- Same data and same spelling of the annotations, but not equal: `(t)"a"` and `(t)a`. -/
example : let a : Document := .mk [.mk (some ⟨['t'], some ['t'], ⟨1, 1⟩⟩) ⟨['a'], some ['"', 'a', '"'], ⟨3, 3⟩⟩
      [] none none ⟨0, 6⟩] none ⟨0, 6⟩
    let b : Document := .mk [.mk (some ⟨['t'], some ['t'], ⟨1, 1⟩⟩) (.ofStr ['a']) [] none none .zero] none .zero
    semDoc id a = semDoc id b ∧ spellDoc a = spellDoc b ∧ a.eq b = false := by
  refine ⟨by simp [semDoc, semNodes, semNode, semOptDoc, Ident.ofStr], ?_, ?_⟩
  · simp [spellDoc, spellNodes, spellNode, spellOpt]
  · simp [Document.eq, nodesEq, Node.eq, Ident.eq, Ident.ofStr]

/-- C17: clearing keeps the data, unconditionally. -/
theorem C17_clear_keeps_data_aux (e : Entry) : semEntry g e.clearFormat = semEntry g e := by
  simp only [semEntry, Entry.clearFormat, optTy_clear]

mutual
theorem semNode_clear : ∀ n : Node, semNode g n.clearFormatRecursive = semNode g n
  | .mk ty name entries children format span => by
    simp only [Node.clearFormatRecursive, semNode, Ident.clearFormat, semOptDoc_clear children,
      List.map_map]
    congr 1
    apply List.map_congr_left
    intro e _; exact C17_clear_keeps_data_aux g e
theorem semOptDoc_clear : ∀ d : Option Document, semOptDoc g (clearOptDoc d) = semOptDoc g d
  | none => rfl
  | some d => by simp only [clearOptDoc, semOptDoc, semDoc_clear d]
theorem semDoc_clear : ∀ d : Document, semDoc g d.clearFormatRecursive = semDoc g d
  | .mk ns f s => by simp only [Document.clearFormatRecursive, semDoc, semNodes_clear ns]
theorem semNodes_clear : ∀ ns : List Node, semNodes g (clearNodes ns) = semNodes g ns
  | [] => rfl
  | n :: ns => by simp only [clearNodes, semNodes, semNode_clear n, semNodes_clear ns]
end

/-- C17: `clear_format_recursive` itself keeps the data. -/
theorem C17_clear_keeps_data (d : Document) : semDoc id d.clearFormatRecursive = semDoc id d :=
  semDoc_clear id d

/-! ### C35, data -/

section
variable [FloatIO]

theorem semEntry_ensureV2 (e : Entry) : semEntry g e.ensureV2 = semEntry g e := by
  unfold Entry.ensureV2; split <;> rfl

mutual
theorem semNode_ensureV2 : ∀ n : Node, semNode g n.ensureV2 = semNode g n
  | .mk ty name entries children format span => by
    simp only [Node.ensureV2, semNode, semOptDoc_ensureV2 children, List.map_map]
    congr 1
    · cases ty <;> rfl
    · apply List.map_congr_left
      intro e _; exact semEntry_ensureV2 g e
theorem semOptDoc_ensureV2 : ∀ d : Option Document, semOptDoc g (ensureOptDoc d) = semOptDoc g d
  | none => rfl
  | some d => by simp only [ensureOptDoc, semOptDoc, semDoc_ensureV2 d]
theorem semDoc_ensureV2 : ∀ d : Document, semDoc g d.ensureV2 = semDoc g d
  | .mk ns f s => by simp only [Document.ensureV2, semDoc, semNodes_ensureV2 ns]
theorem semNodes_ensureV2 : ∀ ns : List Node, semNodes g (ensureNodes ns) = semNodes g ns
  | [] => rfl
  | n :: ns => by simp only [ensureNodes, semNodes, semNode_ensureV2 n, semNodes_ensureV2 ns]
end

/-- C35, data: `ensure_v2` keeps names, types, values, order and children; so
does every further run. -/
theorem C35_ensure_v2_keeps_data (d : Document) (k : Nat) :
    semDoc id (Nat.repeat Document.ensureV2 k d) = semDoc id d := by
  induction k with
  | zero => rfl
  | succ k ih => rw [Nat.repeat, semDoc_ensureV2, ih]
end

/-! ### C37 -/

/-- C37, partial. Full statement: after `keep_format`, the leading text and the
value text of a formatted entry survive any number of `autoformat` runs.
Missing: the mark is lost in the first run (see `C37_violated`), so this is one
run only. -/
theorem C37_keep_format_once_partial (e : Entry) (f : EntryFmt) (h : e.format = some f) :
    ∃ f', e.keepFormat.autoformat.format = some f' ∧ f'.valueRepr = f.valueRepr ∧
      f'.leading = f.leading := by
  simp [Entry.keepFormat, Entry.autoformat, h]

/-- C37: with the configuration's own `entry_keep`, the texts survive any number
of runs. -/
theorem C37_entry_keep_config (c : FormatConfig) (hc : c.entryKeep = true) (e : Entry)
    (f : EntryFmt) (h : e.format = some f) (k : Nat) :
    ∃ f', (Nat.repeat (autoformatEntry c) k e).format = some f' ∧ f'.valueRepr = f.valueRepr ∧
      f'.leading = f.leading := by
  induction k with
  | zero => exact ⟨f, h, rfl, rfl⟩
  | succ k ih =>
    obtain ⟨f', h1, h2, h3⟩ := ih
    simp only [Nat.repeat, autoformatEntry, hc, if_true]
    simp [Entry.keepFormat, Entry.autoformat, h1, h2, h3]

/-- C37: an entry without the mark loses its formatting. -/
theorem C37_not_kept (e : Entry) (h : ∀ f, e.format = some f → f.autoformatKeep = false) :
    e.autoformat.format = none := by
  cases hf : e.format with
  | none => simp [Entry.autoformat, hf]
  | some f => simp [Entry.autoformat, hf, h f hf]

/-- C37 is violated: a second `autoformat` discards the kept text. -/
theorem C37_violated : ∃ (e : Entry) (f : EntryFmt), e.format = some f ∧ f.valueRepr ≠ [] ∧
    e.keepFormat.autoformat.autoformat.format = none :=
  ⟨⟨none, .integer ⟨10, by decide⟩, none, some { valueRepr := "0xA".toList, leading := [' '] }, .zero⟩,
    { valueRepr := "0xA".toList, leading := [' '] }, rfl, by decide, by decide⟩

/-- **C37**, exactly: without the configuration's `entry_keep`, the texts of a marked entry
survive no run and one run, and never more than one. -/
theorem C37_exact (e : Entry) (f : EntryFmt) (h : e.format = some f) (k : Nat) :
    (∃ f', (Nat.repeat Entry.autoformat k e.keepFormat).format = some f' ∧ f'.valueRepr = f.valueRepr ∧
      f'.leading = f.leading) ↔ k ≤ 1 := by
  have h2 : ∀ k, (Nat.repeat Entry.autoformat (k + 2) e.keepFormat).format = none := by
    intro k
    induction k with
    | zero => simp [Nat.repeat, Entry.keepFormat, Entry.autoformat, h]
    | succ k ih => rw [Nat.repeat, Entry.autoformat, ih]
  match k with
  | 0 => simp [Nat.repeat, Entry.keepFormat, h]
  | 1 => simp [Nat.repeat, Entry.keepFormat, Entry.autoformat, h]
  | k + 2 => simp [h2 k]

/-! ### C13 -/

/-- Format records that idempotence is stated for: trailing texts without
carriage returns. -/
def Spec.NodeFmtOk (f : NodeFmt) : Prop := '\r' ∉ f.beforeTerminator ∧ '\r' ∉ f.trailing

mutual
/-- Every node has a format record, texts are free of carriage returns, and no
entry is marked to be kept (unless the configuration keeps all of them). -/
def Spec.FormattedNode (keep : Bool) : Node → Prop
  | .mk _ _ es c f _ => (∃ f', f = some f' ∧ NodeFmtOk f') ∧
      (keep = true ∨ ∀ e ∈ es, ∀ f, e.format = some f → f.autoformatKeep = false) ∧
      FormattedOpt keep c
/-- As above, for children. -/
def Spec.FormattedOpt (keep : Bool) : Option Document → Prop
  | none => True
  | some d => FormattedDoc keep d
/-- As above, for documents. -/
def Spec.FormattedDoc (keep : Bool) : Document → Prop
  | .mk ns f _ => (∀ f', f = some f' → '\r' ∉ f'.trailing) ∧ FormattedNodes keep ns
/-- As above, for lists of nodes. -/
def Spec.FormattedNodes (keep : Bool) : List Node → Prop
  | [] => True
  | n :: ns => FormattedNode keep n ∧ FormattedNodes keep ns
end

theorem autoformatTrailing_idem (nc : Bool) (s w : Str) (hcr : '\r' ∉ s) (hw : AllWs w)
    (hcw : '\r' ∉ w) :
    autoformatTrailing nc (autoformatTrailing nc s ++ w) = autoformatTrailing nc s := by
  rw [autoformatTrailing_eq nc s hcr]
  by_cases h : nc = true ∨ trim s = []
  · rw [if_pos h, List.nil_append, autoformatTrailing_eq nc w hcw, if_pos (Or.inr (trim_ws_all hw))]
  · rw [if_neg h]
    have hcr' : '\r' ∉ ' ' :: trim s ++ ['\n'] ++ w := by
      simp [hcw]; exact fun e => hcr (trim_subset e)
    have htr : trim (' ' :: trim s ++ ['\n'] ++ w) = trim s := by
      have := trim_surround [' '] (trim s) (['\n'] ++ w) (by decide)
        (AllWs.append (by decide) hw)
      rw [trim_trim] at this
      simpa using this
    rw [autoformatTrailing_eq nc _ hcr', htr, if_neg h]

theorem autoformatNodeTrailing_eq (c : FormatConfig) (t : Str) (h : '\r' ∉ t) :
    autoformatNodeTrailing c t =
      if c.noComments = true ∨ trim t = [] then [] else ' ' :: trim t := by
  unfold autoformatNodeTrailing
  rw [autoformatTrailing_eq _ _ h]
  by_cases h' : c.noComments = true ∨ trim t = []
  · simp [h', show trim [] = [] from rfl]
  · rw [if_neg h', if_neg h']
    have htr : trim (' ' :: trim t ++ ['\n']) = trim t := by
      have := trim_surround [' '] (trim t) ['\n'] (by decide) (by decide)
      rw [trim_trim] at this
      simpa using this
    rw [htr]
    rcases trim_trimmed t with h1 | ⟨⟨ch, r, h1, hc⟩, _⟩
    · exact absurd (Or.inr h1) h'
    · simp [h1, hc]

theorem autoformatNodeFmt_idem (c : FormatConfig) (hi : AllWs c.indent) (f : NodeFmt)
    (h : NodeFmtOk f) :
    autoformatNodeFmt c (some (autoformatNodeFmt c (some f))) = autoformatNodeFmt c (some f) := by
  have h1 : autoformatTrailing c.noComments (autoformatTrailing c.noComments f.beforeTerminator) =
      autoformatTrailing c.noComments f.beforeTerminator := by
    have := autoformatTrailing_idem c.noComments f.beforeTerminator [] h.1 AllWs.nil (by simp)
    simpa using this
  have h2 : autoformatNodeTrailing c (autoformatNodeTrailing c f.trailing) =
      autoformatNodeTrailing c f.trailing := by
    rw [autoformatNodeTrailing_eq c f.trailing h.2]
    by_cases h' : c.noComments = true ∨ trim f.trailing = []
    · rw [if_pos h', autoformatNodeTrailing_eq _ _ (by simp), if_pos (Or.inr (by rfl))]
    · rw [if_neg h']
      have htr : trim (' ' :: trim f.trailing) = trim f.trailing := by
        have := trim_surround [' '] (trim f.trailing) [] (by decide) AllWs.nil
        rw [trim_trim] at this
        simpa using this
      rw [autoformatNodeTrailing_eq c _ (by simp; exact fun e => h.2 (trim_subset e)), htr, if_neg h']
  have h3 := autoformatLeading_idem c hi f.leading (autoformatLeading c f.leading) rfl
  have h4 : ∀ t : Str, (match (match t with
        | '\n' :: _ => t
        | _ => ['\n']) with
      | '\n' :: _ => (match t with
        | '\n' :: _ => t
        | _ => ['\n'])
      | _ => ['\n']) = (match t with
        | '\n' :: _ => t
        | _ => ['\n']) := by
    intro t
    split
    · rfl
    · rename_i h; split at h
      · exact absurd rfl (h _)
      · exact absurd rfl (h _)
  simp only [autoformatNodeFmt, h1, h2, h3, NodeFmt.mk.injEq, true_and, and_true]
  exact h4 _

theorem autoformatEntry_idem (c : FormatConfig) (e : Entry)
    (h : c.entryKeep = true ∨ ∀ f, e.format = some f → f.autoformatKeep = false) :
    autoformatEntry c (autoformatEntry c e) = autoformatEntry c e := by
  have hn : ∀ o : Option Ident, (o.map Ident.autoformat).map Ident.autoformat = o.map Ident.autoformat := by
    intro o; cases o <;> rfl
  unfold autoformatEntry
  cases hk : c.entryKeep with
  | true =>
    cases hf : e.format <;> simpa [Entry.keepFormat, Entry.autoformat, hf] using hn e.name
  | false =>
    rw [hk] at h
    simp only [Bool.false_eq_true, false_or] at h
    cases hf : e.format with
    | none => simpa [Entry.autoformat, hf] using hn e.name
    | some f => simpa [Entry.autoformat, hf, h f hf] using hn e.name

theorem autoformatDocFmt_child_idem (c : FormatConfig) (hi : AllWs c.indent) (hcr : '\r' ∉ c.indent)
    (b : Bool) (f : DocFmt) (h : '\r' ∉ f.trailing) :
    autoformatChildFmt c (autoformatDocFmt { c with indentLevel := c.indentLevel + 1 } b
      (autoformatChildFmt c (autoformatDocFmt { c with indentLevel := c.indentLevel + 1 } b f))) =
    autoformatChildFmt c (autoformatDocFmt { c with indentLevel := c.indentLevel + 1 } b f) := by
  have hind : '\r' ∉ indentText c := by
    intro hx
    unfold indentText at hx
    rw [List.mem_flatten] at hx
    obtain ⟨l, hl, hxl⟩ := hx
    rw [List.mem_replicate] at hl
    exact hcr (hl.2 ▸ hxl)
  have hiw := indentText_ws c hi
  simp only [autoformatChildFmt, autoformatDocFmt, DocFmt.mk.injEq]
  constructor
  · rw [autoformatLeading_idem { c with indentLevel := c.indentLevel + 1 } hi f.leading]
    have hnl : AllWs ['\n'] := by decide
    rw [content_ws_suffix _ _ hnl, content_trim]
  · congr 2
    rw [List.append_assoc]
    apply autoformatTrailing_idem _ _ _ h
    · apply AllWs.append _ hiw
      cases b <;> decide
    · cases b <;> simp [hind]

theorem autoformatDocFmt_idem (c : FormatConfig) (hi : AllWs c.indent) (b : Bool) (f : DocFmt)
    (h : '\r' ∉ f.trailing) :
    autoformatDocFmt c b (autoformatDocFmt c b f) = autoformatDocFmt c b f := by
  simp only [autoformatDocFmt, DocFmt.mk.injEq]
  constructor
  · exact autoformatLeading_idem c hi f.leading _ rfl
  · congr 1
    apply autoformatTrailing_idem _ _ _ h
    · cases b <;> decide
    · cases b <;> simp

mutual
theorem autoformatNode_idem : ∀ (c : FormatConfig), AllWs c.indent → '\r' ∉ c.indent →
    ∀ n : Node, FormattedNode c.entryKeep n →
    (n.autoformatConfig c).autoformatConfig c = n.autoformatConfig c
  | c, hi, hcr, .mk ty name entries children format span, h => by
    simp only [FormattedNode] at h
    obtain ⟨⟨f, rfl, hf⟩, he, hc⟩ := h
    have h1 := autoformatOptDoc_idem c hi hcr children hc
    have h2 : (entries.map (autoformatEntry c)).map (autoformatEntry c) =
        entries.map (autoformatEntry c) := by
      rw [List.map_map]
      apply List.map_congr_left
      intro e hmem
      apply autoformatEntry_idem
      rcases he with he | he
      · exact Or.inl he
      · exact Or.inr (he e hmem)
    have h3 : (ty.map Ident.clearFormat).map Ident.clearFormat = ty.map Ident.clearFormat := by
      cases ty <;> rfl
    simp only [Node.autoformatConfig, h1, h2, h3, autoformatNodeFmt_idem c hi f hf]
    rfl
theorem autoformatOptDoc_idem : ∀ (c : FormatConfig), AllWs c.indent → '\r' ∉ c.indent →
    ∀ d : Option Document, FormattedOpt c.entryKeep d →
    autoformatOptDoc c (autoformatOptDoc c d) = autoformatOptDoc c d
  | c, hi, hcr, none, _ => rfl
  | c, hi, hcr, some (.mk ns f s), h => by
    simp only [FormattedOpt, FormattedDoc] at h
    have h1 := autoformatNodes_idem { c with indentLevel := c.indentLevel + 1 } hi hcr ns h.2
    have hne : ∀ l, (autoformatNodes { c with indentLevel := c.indentLevel + 1 } l).isEmpty =
        l.isEmpty := by intro l; cases l <;> rfl
    simp only [autoformatOptDoc, Document.autoformatConfig, Document.nodes, Document.format,
      Document.span, h1, hne]
    cases f with
    | none => rfl
    | some f =>
      simp only [Option.map_some, autoformatDocFmt_child_idem c hi hcr _ f (h.1 f rfl)]
theorem autoformatDoc_idem : ∀ (c : FormatConfig), AllWs c.indent → '\r' ∉ c.indent →
    ∀ d : Document, FormattedDoc c.entryKeep d →
    (d.autoformatConfig c).autoformatConfig c = d.autoformatConfig c
  | c, hi, hcr, .mk ns f s, h => by
    simp only [FormattedDoc] at h
    have h1 := autoformatNodes_idem c hi hcr ns h.2
    have hne : ∀ l, (autoformatNodes c l).isEmpty = l.isEmpty := by intro l; cases l <;> rfl
    simp only [Document.autoformatConfig, h1, hne]
    cases f with
    | none => rfl
    | some f => simp only [Option.map_some, autoformatDocFmt_idem c hi _ f (h.1 f rfl)]
theorem autoformatNodes_idem : ∀ (c : FormatConfig), AllWs c.indent → '\r' ∉ c.indent →
    ∀ ns : List Node, FormattedNodes c.entryKeep ns →
    autoformatNodes c (autoformatNodes c ns) = autoformatNodes c ns
  | c, hi, hcr, [], _ => rfl
  | c, hi, hcr, n :: ns, h => by
    simp only [FormattedNodes] at h
    simp only [autoformatNodes, autoformatNode_idem c hi hcr n h.1,
      autoformatNodes_idem c hi hcr ns h.2]
end

/-- C13, partial. Full statement: formatting twice is the same as formatting
once. Missing: documents with nodes that have no format record, entries marked
with `keep_format`, and trailing texts containing carriage returns, all three of
which have counterexamples below; and indents that are not white space. Parsed
documents without carriage returns meet the conditions. -/
theorem C13_autoformat_idempotent_partial (c : FormatConfig) (hi : AllWs c.indent)
    (hcr : '\r' ∉ c.indent) (d : Document) (h : FormattedDoc c.entryKeep d) :
    (d.autoformatConfig c).autoformatConfig c = d.autoformatConfig c :=
  autoformatDoc_idem c hi hcr d h

/-- A document with comments and nesting that meets the hypotheses. -/
example : FormattedDoc false (.mk [.mk none (.ofStr ['a'])
      [⟨none, .null, none, some { valueRepr := "#null".toList, leading := [' '] }, .zero⟩]
      (some (.mk [.mk none (.ofStr ['b']) [] none
        (some { leading := "\n // hi\n".toList, terminator := [';'] }) .zero]
        (some { trailing := " /* x */ ".toList }) .zero))
      (some { leading := "// c\n".toList, terminator := ['\n'], trailing := ['/', '*', '*', '/'] }) .zero]
      (some { trailing := "// end".toList }) .zero) ∧
    AllWs FormatConfig.default.indent := by
  refine ⟨?_, by decide⟩
  simp [FormattedDoc, FormattedNodes, FormattedNode, FormattedOpt, NodeFmtOk]

section
variable [FloatIO]

/-- C13 is violated for a node without format record: the first run prints the
children brace right after the name, the second run inserts a space. -/
theorem C13_violated_unformatted : ∃ d : Document,
    d.autoformat.display ≠ d.autoformat.autoformat.display := by
  refine ⟨.mk [.mk none (.ofStr ['a']) [] (some (.mk [] none .zero)) none .zero] none .zero, ?_⟩
  intro h
  have h' : "a{\n}\n".toList = "a {\n}\n".toList := h
  exact absurd h' (by decide)

/-- C13 is violated for a kept entry: the second run discards what the first one
kept. -/
theorem C13_violated_kept : ∃ d : Document,
    d.autoformat.display ≠ d.autoformat.autoformat.display := by
  refine ⟨.mk [.mk none (.ofStr ['a']) [⟨none, .null, none,
    some { valueRepr := "null".toList, leading := [' ', ' '], autoformatKeep := true }, .zero⟩]
    none (some {}) .zero] none .zero, ?_⟩
  intro h
  have h' : "a  null\n".toList = "a #null\n".toList := h
  exact absurd h' (by decide)

/-- C13 is violated by a doubled carriage return in a trailing comment. -/
theorem C13_violated_carriage_return : ∃ d : Document,
    d.autoformat.display ≠ d.autoformat.autoformat.display := by
  refine ⟨.mk [] (some { trailing := "//a\r\r\n//b".toList }) .zero, ?_⟩
  intro h
  have h' : " //a\r\n//b\n\n".toList = " //a\n//b\n\n".toList := h
  exact absurd h' (by decide)
end

/-! ### C16 -/

mutual
/-- All the formatting texts that are printed for a node, apart from those of
its entries. -/
def Spec.nodeDecor : Node → List Str
  | .mk _ _ _ c f _ =>
    (match f with
      | some f => [f.leading, f.beforeChildren, f.beforeTerminator, f.terminator, f.trailing]
      | none => []) ++ optDecor c
/-- As above, for children. -/
def Spec.optDecor : Option Document → List Str
  | none => []
  | some d => docDecor d
/-- As above, for documents. -/
def Spec.docDecor : Document → List Str
  | .mk ns f _ => (match f with
      | some f => [f.leading, f.trailing]
      | none => []) ++ nodesDecor ns
/-- As above, for lists of nodes. -/
def Spec.nodesDecor : List Node → List Str
  | [] => []
  | n :: ns => nodeDecor n ++ nodesDecor ns
end

mutual
/-- All entries of a node and of its descendants. -/
def Spec.nodeEntries : Node → List Entry
  | .mk _ _ es c _ _ => es ++ optEntries c
/-- As above, for children. -/
def Spec.optEntries : Option Document → List Entry
  | none => []
  | some d => docEntries d
/-- As above, for documents. -/
def Spec.docEntries : Document → List Entry
  | .mk ns _ _ => nodesEntries ns
/-- As above, for lists of nodes. -/
def Spec.nodesEntries : List Node → List Entry
  | [] => []
  | n :: ns => nodeEntries n ++ nodesEntries ns
end

mutual
/-- Terminators that start with a line feed are white space (those produced by
the parser are a single newline sequence, a semicolon or a comment). -/
def Spec.TermsOkNode : Node → Prop
  | .mk _ _ _ c f _ => (∀ f', f = some f' → ∀ t, f'.terminator = '\n' :: t → AllWs t) ∧ TermsOkOpt c
/-- As above, for children. -/
def Spec.TermsOkOpt : Option Document → Prop
  | none => True
  | some d => TermsOkDoc d
/-- As above, for documents. -/
def Spec.TermsOkDoc : Document → Prop
  | .mk ns _ _ => TermsOkNodes ns
/-- As above, for lists of nodes. -/
def Spec.TermsOkNodes : List Node → Prop
  | [] => True
  | n :: ns => TermsOkNode n ∧ TermsOkNodes ns
end

theorem autoformatTrailing_nc (s : Str) : autoformatTrailing true s = [] := by
  unfold autoformatTrailing
  by_cases h : s = []
  · simp [h]
  · have : s.isEmpty = false := by simp [h]
    simp [this]

theorem autoformatLeading_nc (c : FormatConfig) (h : c.noComments = true) (s : Str) :
    autoformatLeading c s = indentText c := by simp [autoformatLeading, h]

mutual
theorem nodeDecor_nc : ∀ (c : FormatConfig), c.noComments = true → AllWs c.indent → ∀ n : Node,
    TermsOkNode n → ∀ t ∈ nodeDecor (n.autoformatConfig c), AllWs t
  | c, hn, hi, .mk ty name entries children format span, h => by
    simp only [TermsOkNode] at h
    intro t ht
    simp only [Node.autoformatConfig, nodeDecor, List.mem_append] at ht
    rcases ht with ht | ht
    · cases format with
      | none =>
        simp only [autoformatNodeFmt, List.mem_cons, List.not_mem_nil, or_false] at ht
        rcases ht with rfl | rfl | rfl | rfl | rfl <;> decide
      | some f =>
        simp only [autoformatNodeFmt, List.mem_cons, List.not_mem_nil, or_false, hn,
          autoformatTrailing_nc, autoformatLeading_nc c hn] at ht
        rcases ht with rfl | rfl | rfl | rfl | rfl
        · exact indentText_ws c hi
        · decide
        · decide
        · split
          · rename_i q hq
            have := h.1 f rfl
            cases hterm : f.terminator with
            | nil => decide
            | cons x y =>
              rw [hterm] at hq
              cases hq
              exact AllWs.cons (by decide) (this _ hterm)
          · decide
        · simp [autoformatNodeTrailing, hn, autoformatTrailing_nc, show trim [] = [] from rfl]
          decide
    · exact optDecor_nc c hn hi children h.2 t ht
theorem optDecor_nc : ∀ (c : FormatConfig), c.noComments = true → AllWs c.indent →
    ∀ d : Option Document, TermsOkOpt d → ∀ t ∈ optDecor (autoformatOptDoc c d), AllWs t
  | c, hn, hi, none, _ => by simp [autoformatOptDoc, optDecor]
  | c, hn, hi, some (.mk ns f s), h => by
    simp only [TermsOkOpt, TermsOkDoc] at h
    intro t ht
    simp only [autoformatOptDoc, Document.autoformatConfig, Document.nodes, Document.format,
      optDecor, docDecor, List.mem_append] at ht
    rcases ht with ht | ht
    · cases f with
      | none => simp at ht
      | some f =>
        simp only [Option.map_some, autoformatChildFmt, autoformatDocFmt, List.mem_cons,
          List.not_mem_nil, or_false, hn, autoformatTrailing_nc] at ht
        rcases ht with rfl | rfl
        · rw [autoformatLeading_nc _ rfl, trim_ws_all (by exact indentText_ws _ hi)]; decide
        · exact ((AllWs.nil).append (by split <;> decide)).append (indentText_ws c hi)
    · exact nodesDecor_nc { c with indentLevel := c.indentLevel + 1 } hn hi ns h t ht
theorem nodesDecor_nc : ∀ (c : FormatConfig), c.noComments = true → AllWs c.indent →
    ∀ ns : List Node, TermsOkNodes ns → ∀ t ∈ nodesDecor (autoformatNodes c ns), AllWs t
  | c, hn, hi, [], _ => by simp [autoformatNodes, nodesDecor]
  | c, hn, hi, n :: ns, h => by
    simp only [TermsOkNodes] at h
    intro t ht
    simp only [autoformatNodes, nodesDecor, List.mem_append] at ht
    rcases ht with ht | ht
    · exact nodeDecor_nc c hn hi n h.1 t ht
    · exact nodesDecor_nc c hn hi ns h.2 t ht
end

mutual
theorem nodeEntries_autoformat : ∀ (c : FormatConfig) (n : Node), ∀ e ∈ nodeEntries (n.autoformatConfig c),
    ∃ e' ∈ nodeEntries n, e = autoformatEntry c e' ∨
      ∃ c' : FormatConfig, c'.entryKeep = c.entryKeep ∧ e = autoformatEntry c' e'
  | c, .mk ty name entries children format span => by
    intro e he
    simp only [Node.autoformatConfig, nodeEntries, List.mem_append, List.mem_map] at *
    rcases he with ⟨e', he', rfl⟩ | he
    · exact ⟨e', Or.inl he', Or.inl rfl⟩
    · obtain ⟨e', h1, h2⟩ := optEntries_autoformat c children e he
      exact ⟨e', Or.inr h1, h2⟩
theorem optEntries_autoformat : ∀ (c : FormatConfig) (d : Option Document),
    ∀ e ∈ optEntries (autoformatOptDoc c d),
    ∃ e' ∈ optEntries d, e = autoformatEntry c e' ∨
      ∃ c' : FormatConfig, c'.entryKeep = c.entryKeep ∧ e = autoformatEntry c' e'
  | c, none => by simp [autoformatOptDoc, optEntries]
  | c, some (.mk ns f s) => by
    intro e he
    simp only [autoformatOptDoc, Document.autoformatConfig, Document.nodes, optEntries,
      docEntries] at *
    obtain ⟨e', h1, h2⟩ := nodesEntries_autoformat _ ns e he
    refine ⟨e', h1, Or.inr ?_⟩
    rcases h2 with h2 | ⟨c', h2, h3⟩
    · exact ⟨_, rfl, h2⟩
    · exact ⟨c', h2, h3⟩
theorem nodesEntries_autoformat : ∀ (c : FormatConfig) (ns : List Node),
    ∀ e ∈ nodesEntries (autoformatNodes c ns),
    ∃ e' ∈ nodesEntries ns, e = autoformatEntry c e' ∨
      ∃ c' : FormatConfig, c'.entryKeep = c.entryKeep ∧ e = autoformatEntry c' e'
  | c, [] => by simp [autoformatNodes, nodesEntries]
  | c, n :: ns => by
    intro e he
    simp only [autoformatNodes, nodesEntries, List.mem_append] at *
    rcases he with he | he
    · obtain ⟨e', h1, h2⟩ := nodeEntries_autoformat c n e he
      exact ⟨e', Or.inl h1, h2⟩
    · obtain ⟨e', h1, h2⟩ := nodesEntries_autoformat c ns e he
      exact ⟨e', Or.inr h1, h2⟩
end

/-- C16, partial. Full statement: without the hypothesis on terminators, which
is needed because a stored terminator that starts with a line feed is kept as it
is (`C16_violated_terminator`); terminators of parsed nodes satisfy it.
After `autoformat_no_comments` every formatting text that is printed is
white space, and no entry prints a stored text, provided that no entry asked to
be kept and no terminator is a line feed followed by something else than white
space. -/
theorem C16_no_comments_partial (d : Document) (ht : TermsOkDoc d)
    (hk : ∀ e ∈ docEntries d, ∀ f, e.format = some f → f.autoformatKeep = false) :
    (∀ t ∈ docDecor d.autoformatNoComments, AllWs t) ∧
    (∀ e ∈ docEntries d.autoformatNoComments, e.format = none) := by
  have hi : AllWs ({ FormatConfig.default with noComments := true } : FormatConfig).indent := by
    decide
  cases d with
  | mk ns f s =>
    constructor
    · intro t h
      simp only [Document.autoformatNoComments, Document.autoformatConfig, docDecor,
        List.mem_append] at h
      rcases h with h | h
      · cases f with
        | none => simp at h
        | some f =>
          simp only [Option.map_some, autoformatDocFmt, List.mem_cons, List.not_mem_nil, or_false,
            autoformatTrailing_nc] at h
          rcases h with rfl | rfl
          · rw [autoformatLeading_nc _ rfl]; exact indentText_ws _ hi
          · exact (AllWs.nil).append (by split <;> decide)
      · exact nodesDecor_nc _ rfl hi ns ht t h
    · intro e he
      simp only [Document.autoformatNoComments, Document.autoformatConfig, docEntries] at he hk
      obtain ⟨e', h1, h2⟩ := nodesEntries_autoformat _ ns e he
      have key : ∀ c' : FormatConfig, c'.entryKeep = false → (autoformatEntry c' e').format = none := by
        intro c' hc'
        simp only [autoformatEntry, hc', Bool.false_eq_true, if_false]
        exact C37_not_kept e' (hk e' h1)
      rcases h2 with rfl | ⟨c', hc', rfl⟩
      · exact key _ rfl
      · exact key c' hc'

mutual
theorem nodeDecor_terms : ∀ (c : FormatConfig) (n : Node),
    (∀ t ∈ nodeDecor (n.autoformatConfig c), AllWs t) → TermsOkNode n
  | c, .mk ty name entries children format span, h => by
    simp only [Node.autoformatConfig, nodeDecor, List.mem_append] at h
    simp only [TermsOkNode]
    refine ⟨?_, optDecor_terms c children fun t ht => h t (.inr ht)⟩
    rintro f rfl t hf
    have := h f.terminator (.inl (by simp [autoformatNodeFmt, hf]))
    rw [hf] at this
    exact fun x hx => this x (List.mem_cons_of_mem _ hx)
theorem optDecor_terms : ∀ (c : FormatConfig) (d : Option Document),
    (∀ t ∈ optDecor (autoformatOptDoc c d), AllWs t) → TermsOkOpt d
  | c, none, _ => by simp [TermsOkOpt]
  | c, some (.mk ns f s), h => by
    simp only [autoformatOptDoc, Document.autoformatConfig, Document.nodes, Document.format,
      optDecor, docDecor, List.mem_append] at h
    simp only [TermsOkOpt, TermsOkDoc]
    exact nodesDecor_terms _ ns fun t ht => h t (.inr ht)
theorem nodesDecor_terms : ∀ (c : FormatConfig) (ns : List Node),
    (∀ t ∈ nodesDecor (autoformatNodes c ns), AllWs t) → TermsOkNodes ns
  | c, [], _ => by simp [TermsOkNodes]
  | c, n :: ns, h => by
    simp only [autoformatNodes, nodesDecor, List.mem_append] at h
    simp only [TermsOkNodes]
    exact ⟨nodeDecor_terms c n fun t ht => h t (.inl ht), nodesDecor_terms c ns fun t ht => h t (.inr ht)⟩
end

/-- C16, exactly: if no entry asked to be kept, the formatting texts are white space after
`autoformat_no_comments` if and only if the terminators that start with a line feed were. -/
theorem C16_exact (d : Document)
    (hk : ∀ e ∈ docEntries d, ∀ f, e.format = some f → f.autoformatKeep = false) :
    ((∀ t ∈ docDecor d.autoformatNoComments, AllWs t) ∧
      ∀ e ∈ docEntries d.autoformatNoComments, e.format = none) ↔ TermsOkDoc d := by
  refine ⟨fun h => ?_, fun h => C16_no_comments_partial d h hk⟩
  cases d with
  | mk ns f s =>
    refine nodesDecor_terms { FormatConfig.default with noComments := true } ns fun t ht => h.1 t ?_
    simp only [Document.autoformatNoComments, Document.autoformatConfig, docDecor, List.mem_append]
    exact .inr ht

/-- C16 is violated by a node whose stored terminator is a line feed followed by
a comment. -/
theorem C16_violated_terminator : ∃ d : Document, docEntries d = [] ∧
    "\n//c".toList ∈ docDecor d.autoformatNoComments :=
  ⟨.mk [.mk none (.ofStr ['a']) [] none (some { terminator := "\n//c".toList }) .zero] none .zero,
    rfl, by decide⟩

/-- A commented document that meets the hypotheses and loses its comments. -/
example : let d : Document := (.mk [.mk none (.ofStr ['a']) [.new .null] none
      (some { leading := "// c\n".toList, terminator := "// d\n".toList }) .zero]
      (some { trailing := "/* e */".toList }) .zero)
    TermsOkDoc d ∧ (∀ e ∈ docEntries d, ∀ f, e.format = some f → f.autoformatKeep = false) ∧
    docDecor d.autoformatNoComments = [[], [], [], [' '], [], ['\n'], []] := by
  refine ⟨?_, ?_, by decide⟩
  · simp [TermsOkDoc, TermsOkNodes, TermsOkNode, TermsOkOpt]
  · simp [docEntries, nodesEntries, nodeEntries, optEntries, Entry.new]

end Kdl
