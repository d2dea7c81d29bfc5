import Verif.Lemmas.Lined
import Verif.Lemmas.Behind
import Verif.Props.Reprint
import Verif.Props.Exact
import Verif.Lemmas.Parser.TidyParse
import Verif.Spec.Keep
/-
C14: autoformatted documents with their comments, printed and read back.
-/

namespace Kdl
open Spec

section
variable [FloatIO]

/-! ### Canonical data -/

mutual
theorem canonNode_lift : ∀ {a b : Node}, semNode id a = semNode canonValue b → semNode canonValue a = semNode canonValue b
  | .mk ty name es ch _ _, .mk ty' name' es' ch' _ _, h => by
    simp only [semNode, SNode.mk.injEq] at h ⊢
    exact ⟨h.1, h.2.1, canonEntries_lift h.2.2.1, canonOpt_lift h.2.2.2⟩
theorem canonOpt_lift : ∀ {a b : Option Document}, semOptDoc id a = semOptDoc canonValue b →
    semOptDoc canonValue a = semOptDoc canonValue b
  | none, none, _ => rfl
  | none, some _, h => by simp [semOptDoc] at h
  | some _, none, h => by simp [semOptDoc] at h
  | some a, some b, h => by
    simp only [semOptDoc, Option.some.injEq] at h ⊢
    exact canonDoc_lift h
theorem canonDoc_lift : ∀ {a b : Document}, semDoc id a = semDoc canonValue b → semDoc canonValue a = semDoc canonValue b
  | .mk ns _ _, .mk ms _ _, h => by
    simp only [semDoc] at h ⊢
    exact canonNodes_lift h
theorem canonNodes_lift : ∀ {a b : List Node}, semNodes id a = semNodes canonValue b →
    semNodes canonValue a = semNodes canonValue b
  | [], [], _ => rfl
  | [], _ :: _, h => by simp [semNodes] at h
  | _ :: _, [], h => by simp [semNodes] at h
  | x :: a, y :: b, h => by
    simp only [semNodes, List.cons.injEq] at h ⊢
    exact ⟨canonNode_lift h.1, canonNodes_lift h.2⟩
theorem canonEntries_lift : ∀ {a b : List Entry}, a.map (semEntry id) = b.map (semEntry canonValue) →
    a.map (semEntry canonValue) = b.map (semEntry canonValue)
  | [], [], _ => rfl
  | [], _ :: _, h => by cases h
  | _ :: _, [], h => by cases h
  | x :: a, y :: b, h => by
    simp only [List.map_cons, List.cons.injEq, semEntry, SEntry.mk.injEq] at h ⊢
    refine ⟨⟨h.1.1, h.1.2.1, ?_⟩, canonEntries_lift h.2⟩
    rw [show x.value = canonValue y.value from h.1.2.2, canon_idem]
end

/-! ### Neat documents -/

/-- The text between the last entry of a node, or its block, and its terminator is white
space and comments, or has slashdashed entries and blocks and no carriage return. -/
def Ending (b : Bool) (s : Str) : Prop :=
  (∃ r w, NSpace r w ∧ trim s = trim w) ∨ (b = false ∧ '\r' ∉ s ∧ ∃ k r, Text (.mid k) r s) ∨
    (b = true ∧ '\r' ∉ s ∧ ∃ w C, s = w ++ C ∧ NSpace C w ∧ Text .blocks [] C)

mutual
/-- Names and values can be written, annotations of entries are read back, no entry asks
to be kept, terminators are simple, and the texts around the node are white space and
comments, or may be cut into lines. -/
inductive NeatNode : Node → Prop
  | mk {ty : Option Ident} {name : Ident} {es : List Entry} {ch : Option Document} {format : Option NodeFmt}
      {span : Span} (h1 : ∀ t, ty = some t → Writable t.value) (h2 : Writable name.value)
      (h3 : ∀ e ∈ es, (∀ f, e.format = some f → f.autoformatKeep = false) ∧
        (∀ n, e.name = some n → Writable n.value) ∧ (∀ t, e.ty = some t → Shown t) ∧ WritableValue e.value)
      (h4 : ∀ f, format = some f → (∀ t, f.terminator = '\n' :: t → t = []) ∧ AllWs f.trailing ∧
        Orderly f.leading ∧ Ending ch.isSome f.beforeTerminator)
      (h5 : ∀ d, ch = some d → NeatDoc d) :
      NeatNode (.mk ty name es ch format span)
/-- The same for a document. -/
inductive NeatDoc : Document → Prop
  | mk {ns : List Node} {format : Option DocFmt} {span : Span}
      (h1 : ∀ f, format = some f → Orderly f.leading ∧ Orderly f.trailing)
      (h2 : ∀ n ∈ ns, NeatNode n) : NeatDoc (.mk ns format span)
end

/-- A printed entry whose annotation is read back. -/
theorem EntryText.shown [LawfulFloatIO] {e : Entry} (h0 : e.format = none) (h1 : ∀ n, e.name = some n → n.repr = none ∧ Writable n.value)
    (h2 : ∀ t, e.ty = some t → Shown t) (h3 : WritableValue e.value) : EntryText (semEntry canonValue e) e.display := by
  obtain ⟨ty, v, name, format, span⟩ := e
  obtain rfl : format = none := h0
  have hv : ValText v.display (canonValue v) := ValText.write h3
  have ht : ∃ tt, TyText v.display (ty.map Ident.value) tt ∧ (Entry.mk ty v name none span).displayTy = tt := by
    cases ty with
    | none => exact ⟨_, .none, rfl⟩
    | some t =>
      have : StrText t.display t.value := by
        rcases h2 t rfl with ⟨hr, hw⟩ | ⟨x, hr, hx⟩
        · exact StrText.ident hr hw
        · unfold Ident.display
          rw [hr]
          exact hx
      refine ⟨_, .some this .nil .nil .nil, ?_⟩
      simp [Entry.displayTy]
  obtain ⟨tt, ht, e⟩ := ht
  unfold Entry.display
  rw [e]
  cases name with
  | none =>
    have := EntryEnd.arg (k := false) ht hv
    simpa [Entry.displayKey, semEntry] using this
  | some n =>
    have := EntryEnd.prop (k := false) (StrText.ident (h1 n rfl).1 (h1 n rfl).2) .nil .nil ht hv
    simpa [Entry.displayKey, semEntry] using this

theorem autoEntries_text [LawfulFloatIO] {c : FormatConfig} (hk : c.entryKeep = false) : ∀ {es : List Entry},
    (∀ e ∈ es, (∀ f, e.format = some f → f.autoformatKeep = false) ∧
        (∀ n, e.name = some n → Writable n.value) ∧ (∀ t, e.ty = some t → Shown t) ∧ WritableValue e.value) →
    EntriesText (es.map (semEntry canonValue)) (displayEntries (es.map (autoformatEntry c)))
  | [], _ => .nil
  | e :: es, h => by
    obtain ⟨h1, h2, h3, h4⟩ := h e (by simp)
    have ih := autoEntries_text hk (es := es) fun x hx => h x (by simp [hx])
    have hf : (autoformatEntry c e).format = none := by
      simp only [autoformatEntry, hk, Bool.false_eq_true, if_false, Entry.autoformat]
      cases hf : e.format with
      | none => rfl
      | some f => simp [h1 f hf]
    have hs : semEntry canonValue (autoformatEntry c e) = semEntry canonValue e := by
      simp only [autoformatEntry, hk, Bool.false_eq_true, if_false, Entry.autoformat, semEntry]
      cases e.name <;> rfl
    have ht : EntryText (semEntry canonValue (autoformatEntry c e)) (autoformatEntry c e).display := by
      refine EntryText.shown hf ?_ ?_ ?_
      · intro n hn
        simp only [autoformatEntry, hk, Bool.false_eq_true, if_false, Entry.autoformat] at hn
        cases hn' : e.name with
        | none => rw [hn'] at hn; cases hn
        | some i =>
          rw [hn'] at hn
          cases hn
          exact ⟨rfl, h2 i hn'⟩
      · simpa [autoformatEntry, hk, Entry.autoformat] using h3
      · simpa [autoformatEntry, hk, Entry.autoformat] using h4
    rw [hs] at ht
    have := EntriesText.cons (.space (.space (c := ' ') (by decide) .nil) (by simp)) ht ih
    simpa [displayEntries, hf] using this

/-! ### What is printed -/

theorem nl_lspace (x : Str) : LSpace x ['\n'] :=
  .newline (m := ['\n']) (t := []) (Or.inr ⟨_, rfl, by decide, by simp⟩) .nil

theorem lead_of_lspace {r w : Str} (h : LSpace r w) : Text .lead r w := by
  have := Text.leadSpace (L := []) (r := r) (w := w) (by simpa using h) .leadNil
  simpa using this

/-- A node in front of further nodes. -/
theorem items_cons {r B X : Str} {d : SNode Value} {ds : List (SNode Value)} {k : Bool} (hB : ∀ x, Text (.node k d) ('\n' :: x) B)
    (hX : Text (.nodes ds) r X) : Text (.items (d :: ds)) r (B ++ '\n' :: X) := by
  have hm : ∀ x, TermText ['\n'] x := fun x => Or.inr (Or.inl (Or.inr ⟨_, rfl, by decide, by simp⟩))
  cases hX with
  | empty hL => exact .lastTerm (m := ['\n']) (hB _) (hm _) hL
  | items hL hT => exact .cons (m := ['\n']) (hB _) (hm _) hL hT

theorem nodes_lead {r w X : Str} {ds : List (SNode Value)} (hw : ∀ x, Text .lead x w) (hX : Text (.nodes ds) r X) :
    Text (.nodes ds) r (w ++ X) := by
  cases hX with
  | empty hL => exact .empty (lead_concat (hw _) rfl rfl hL)
  | items hL hT =>
    rw [← List.append_assoc]
    exact .items (lead_concat (hw _) rfl rfl hL) hT

/-- What is shown of a formatted node. -/
def NeatGoal (c : FormatConfig) (n : Node) : Prop := ∀ ind, ∃ lead B L,
  (n.autoformatConfig c).stringify ind = lead ++ (B ++ '\n' :: L) ∧ (∀ x, Text .lead x lead) ∧ (∀ x, LSpace x L) ∧
  ∀ x, Text (.node false (semNode canonValue n)) ('\n' :: x) B

theorem neatNodes_text {c : FormatConfig} {ind : Nat} {tr : Str} (htr : ∀ x, Text .lead x tr) : ∀ {ns : List Node},
    (∀ n ∈ ns, NeatGoal c n) → ∀ r, Text (.nodes (semNodes canonValue ns)) r (nodesStringify (autoformatNodes c ns) ind ++ tr)
  | [], _, r => by
    simpa [autoformatNodes, nodesStringify, semNodes] using Text.empty (htr r)
  | n :: ns, h, r => by
    obtain ⟨lead, B, L, e, h1, h2, h3⟩ := h n (by simp) ind
    have ih := neatNodes_text (ind := ind) htr (ns := ns) (fun m hm => h m (by simp [hm])) r
    have := items_cons h3 (nodes_lead (fun x => lead_of_lspace (h2 x)) ih)
    have := Text.items (h1 _) this
    simpa [autoformatNodes, nodesStringify, semNodes, e] using this

omit [FloatIO] in
theorem autoformatNodes_isEmpty (c : FormatConfig) (ns : List Node) : (autoformatNodes c ns).isEmpty = ns.isEmpty := by
  cases ns <;> rfl

omit [FloatIO] in
/-- The terminator of a formatted node. -/
theorem autoTerm {c : FormatConfig} {f : NodeFmt} (h : ∀ t, f.terminator = '\n' :: t → t = []) :
    (autoformatNodeFmt c (some f)).terminator = ['\n'] := by
  simp only [autoformatNodeFmt]
  split
  · next t ht => rw [ht, h t ht]
  · rfl

omit [FloatIO] in
theorem autoTrailing_trim {nc : Bool} {s w : Str} (h : trim s = trim w) : autoformatTrailing nc s = autoformatTrailing nc w := by
  by_cases hs : trim s = []
  · rw [autoformatTrailing_blank (.inr ((trim_eq_nil_iff s).mp hs)),
      autoformatTrailing_blank (.inr ((trim_eq_nil_iff w).mp (h ▸ hs)))]
  · have h1 : s ≠ [] := by rintro rfl; exact hs rfl
    have h2 : w ≠ [] := by rintro rfl; exact hs (h.trans rfl)
    simp only [autoformatTrailing, List.isEmpty_eq_false_iff.mpr h1, List.isEmpty_eq_false_iff.mpr h2, Bool.false_eq_true, if_false, h]

theorem Ending.form {b nc : Bool} {s : Str} (h : Ending b s) :
    ∃ w L, autoformatTrailing nc s ++ ['\n'] = w ++ '\n' :: L ∧ (b = false → ∀ x, Text (.mid false) x w) ∧
      (b = true → ∀ x, Text .tail x w) ∧ (L = [] ∨ L = ['\n']) := by
  rcases h with ⟨r, w, h1, h2⟩ | ⟨rfl, h0, k, r, h1⟩ | ⟨rfl, h0, w, C, rfl, h1, h2⟩
  · obtain ⟨w', L, e, hw, hL⟩ := scan_before (nc := nc) h1
    exact ⟨w', L, by rw [autoTrailing_trim h2, e], fun _ x => .midSpace (hw x), fun _ x => .tailSpace (hw x), hL⟩
  · obtain ⟨w', L, e, hw, hL⟩ := mid_before (nc := nc) h1 h0
    exact ⟨w', L, e, fun _ => hw, by simp, hL⟩
  · obtain ⟨w', L, e, hw, hL⟩ := tail_before (nc := nc) h1 h2 h0
    exact ⟨w', L, e, by simp, fun _ => hw, hL⟩

mutual
theorem NeatNode.goal [LawfulFloatIO] : ∀ {c : FormatConfig}, c.entryKeep = false → (∀ x ∈ c.indent, Space x) →
    ∀ {n : Node}, NeatNode n → NeatGoal c n
  | c, hk, hi, .mk ty name es ch format span, .mk h1 h2 h3 h4 h5 => by
    intro ind
    have hT := autoEntries_text hk h3
    have hty : ∀ i ∈ ty.map Ident.clearFormat, ReadableIdent i := by
      intro i hi'
      cases ty with
      | none => cases hi'
      | some t =>
        cases hi'
        exact StrText.ident rfl (h1 t rfl)
    have hty' := tyText_text (nt := name.clearFormat.display) hty
    rw [show (ty.map Ident.clearFormat).map Ident.value = ty.map Ident.value by cases ty <;> rfl] at hty'
    have hname : StrText name.clearFormat.display name.value := StrText.ident rfl h2
    -- the text in front, before the terminator, and after
    obtain ⟨lead, w, L, bc, e, g1, g2, g3, g4⟩ : ∃ lead w L bc, (∀ core,
        (match some (autoformatNodeFmt c format) with | some f => f.leading | none => spaces ind) ++ (core ++
          ((autoformatNodeFmt c format).beforeTerminator ++ (autoformatNodeFmt c format).terminator ++
            (autoformatNodeFmt c format).trailing)) = lead ++ (core ++ (w ++ '\n' :: L))) ∧
        (∀ x, Text .lead x lead) ∧ ((ch.isSome = false → ∀ x, Text (.mid false) x w) ∧ (ch.isSome = true → ∀ x, Text .tail x w)) ∧
        (∀ x, LSpace x L) ∧ (autoformatNodeFmt c format).beforeChildren = bc ∧
        ∀ x, NSpace x bc := by
      cases format with
      | none => exact ⟨[], [], [], [], fun core => by simp [autoformatNodeFmt], fun _ => .leadNil,
          ⟨fun _ _ => .midSpace .nil, fun _ _ => .tailSpace .nil⟩, fun _ => .nil, rfl, fun _ => .nil⟩
      | some f =>
        obtain ⟨t1, t2, t3, t4⟩ := h4 f rfl
        obtain ⟨w, L, e, hw, hw', hL⟩ := t4.form (nc := c.noComments)
        have hL : ∀ x, LSpace x L := by
          rcases hL with rfl | rfl
          · exact fun _ => .nil
          · exact nl_lspace
        refine ⟨autoformatLeading c f.leading, w, L, [' '], fun core => ?_, t3.leading hi, ⟨hw, hw'⟩, hL, rfl,
          fun _ => .space (by decide) .nil⟩
        rw [autoTerm t1]
        simp only [autoformatNodeFmt, e, autoformatNodeTrailing_blank (.inr t2), List.append_nil]
    refine ⟨lead, (Node.autoformatConfig c (.mk ty name es ch format span)).coreText ind ++ w, L, ?_, g1, g3, ?_⟩
    · rw [Node.stringify_split, List.append_assoc]
      exact e _
    · intro x
      have hmid : ∀ y, Text (.mid false) y bc := fun y => .midSpace (g4.2 y)
      cases ch with
      | none =>
        have := Text.leaf hty' hname hT (g2.1 rfl ('\n' :: x))
        simpa [Node.autoformatConfig, autoformatOptDoc, Node.coreText, Node.ty, Node.name, Node.entries, Node.children,
          childrenStringify, semNode, semOptDoc] using this
      | some d =>
        have hD := NeatDoc.block hk hi (h5 d rfl) ind
        have hfm : ∀ ns f s, (Document.mk ns f s).format = f := fun _ _ _ => rfl
        have := Text.block (k := false) hty' hname hT (fun y => hmid ('{' :: y)) (fun y => hD ('}' :: y)) (g2.2 rfl ('\n' :: x))
        simpa [Node.autoformatConfig, autoformatOptDoc, Node.coreText, Node.ty, Node.name, Node.entries, Node.children, Node.format,
          childrenStringify, semNode, semOptDoc, beforeText, g4.1, hfm] using this
theorem NeatDoc.block [LawfulFloatIO] : ∀ {c : FormatConfig}, c.entryKeep = false → (∀ x ∈ c.indent, Space x) →
    ∀ {d : Document}, NeatDoc d → ∀ (ind : Nat) (r : Str),
    Text (.nodes (semDoc canonValue d)) r
      ((if (d.autoformatConfig { c with indentLevel := c.indentLevel + 1 }).format.isNone then ['\n'] else []) ++
      ((Document.mk (d.autoformatConfig { c with indentLevel := c.indentLevel + 1 }).nodes
        ((d.autoformatConfig { c with indentLevel := c.indentLevel + 1 }).format.map (autoformatChildFmt c))
        (d.autoformatConfig { c with indentLevel := c.indentLevel + 1 }).span).stringify (ind + 4) ++
      (if (d.autoformatConfig { c with indentLevel := c.indentLevel + 1 }).format.isNone then spaces ind else [])))
  | c, hk, hi, .mk ns format span, .mk h1 h2 => by
    intro ind r
    have hg : ∀ n ∈ ns, NeatGoal { c with indentLevel := c.indentLevel + 1 } n := fun n hn =>
      NeatNode.goal (c := { c with indentLevel := c.indentLevel + 1 }) hk hi (h2 n hn)
    cases format with
    | none =>
      have := nodes_lead (fun x => lead_of_lspace (nl_lspace x))
        (neatNodes_text (ind := ind + 4) (tr := spaces ind) (fun x => lead_of_lspace (spaces_lspace x ind)) hg r)
      simpa [Document.autoformatConfig, Document.format, Document.nodes, Document.stringify, semDoc] using this
    | some f =>
      obtain ⟨t1, t2⟩ := h1 f rfl
      have hl : ∀ x, Text .lead x (trim (autoformatLeading { c with indentLevel := c.indentLevel + 1 } f.leading) ++ ['\n']) :=
        t1.first (c := { c with indentLevel := c.indentLevel + 1 }) hi
      have ht : ∀ x, Text .lead x (autoformatTrailing c.noComments f.trailing ++ (if !ns.isEmpty then [] else ['\n']) ++ indentText c) := by
        refine leadAll_append (leadAll_append t2.trailing ?_) (spaces_lead (indentText_spaces hi))
        split
        · exact fun _ => .leadNil
        · exact fun x => lead_of_lspace (nl_lspace x)
      have := nodes_lead hl (neatNodes_text (ind := ind + 4) ht hg r)
      simpa [Document.autoformatConfig, Document.format, Document.nodes, Document.stringify, semDoc, autoformatChildFmt,
        autoformatDocFmt] using this
end

/-- A formatted document, after the text in front of its first node. -/
theorem NeatDoc.text [LawfulFloatIO] {c : FormatConfig} (hk : c.entryKeep = false) (hi : ∀ x ∈ c.indent, Space x)
    {ns : List Node} {f : Option DocFmt} {span : Span} (h : NeatDoc (.mk ns f span)) {l : Str} (hl : ∀ x, Text .lead x l) (r : Str) :
    Text (.nodes (semNodes canonValue ns)) r (l ++ (nodesStringify (autoformatNodes c ns) 0 ++
      (match f with | some f => autoformatTrailing c.noComments f.trailing ++ (if !ns.isEmpty then [] else ['\n']) | none => []))) := by
  cases h with
  | mk h1 h2 =>
    refine nodes_lead hl (neatNodes_text ?_ (fun n hn => NeatNode.goal hk hi (h2 n hn)) r)
    cases f with
    | none => exact fun _ => .leadNil
    | some f =>
      refine leadAll_append (h1 f rfl).2.trailing ?_
      split
      · exact fun _ => .leadNil
      · exact fun x => lead_of_lspace (nl_lspace x)

theorem NeatDoc.parse [LawfulFloatIO] {c : FormatConfig} (hk : c.entryKeep = false) (hi : ∀ x ∈ c.indent, Space x)
    {d : Document} (h : NeatDoc d) :
    ∃ d', Document.parse (d.autoformatConfig c).display = .ok d' ∧ semDoc canonValue d' = semDoc canonValue d := by
  cases d with
  | mk ns f span =>
    have hl : ∀ x, Text .lead x (match f with | some f => autoformatLeading c f.leading | none => []) := by
      cases f with
      | none => exact fun _ => .leadNil
      | some f =>
        cases h with
        | mk h1 _ => exact (h1 f rfl).1.leading hi
    have ht := NeatDoc.text hk hi h hl []
    obtain ⟨d', h1, h2⟩ := C50_document.mpr ⟨_, Or.inl rfl, ht⟩
    refine ⟨d', ?_, canonDoc_lift (by rw [h2]; rfl)⟩
    rw [← h1]
    congr 1
    cases f <;> simp [Document.display, Document.autoformatConfig, Document.stringify, autoformatDocFmt]

/-- With a byte order mark in front. -/
theorem NeatDoc.parse_bom [LawfulFloatIO] {c : FormatConfig} (hk : c.entryKeep = false) (hi : ∀ x ∈ c.indent, Space x)
    (h0 : c.indentLevel = 0 ∨ c.noComments = true) {d : Document} (h : NeatDoc d)
    (hp : ∀ f, d.format = some f → ∃ r, LSpace r f.leading) :
    ∃ d', Document.parse ((d.prependLeading [Char.ofNat 0xFEFF]).autoformatConfig c).display = .ok d' ∧
      semDoc canonValue d' = semDoc canonValue d := by
  cases d with
  | mk ns f span =>
    cases f with
    | none => exact NeatDoc.parse hk hi h
    | some f =>
      obtain ⟨r1, t1⟩ := hp f rfl
      have key : ∃ t, (autoformatLeading c (Char.ofNat 0xFEFF :: f.leading) = t ∨
          autoformatLeading c (Char.ofNat 0xFEFF :: f.leading) = Char.ofNat 0xFEFF :: t) ∧ ∀ x, LSpace x t := by
        cases hn : c.noComments with
        | true =>
          refine ⟨indentText c, Or.inl ?_, fun x => ?_⟩
          · rw [autoformatLeading_eq, hn]; rfl
          · have := autoLeading_lspace hi t1 x
            rw [autoformatLeading_eq, hn] at this
            simpa using this
        | false =>
          obtain ⟨y, e, hy⟩ := scan_bom (h0.resolve_right (by simp [hn])) hn (b := Char.ofNat 0xFEFF) (by decide) t1
          exact ⟨y, Or.inr e, hy⟩
      obtain ⟨t, e, hl⟩ := key
      have ht := NeatDoc.text hk hi h (fun x => lead_of_lspace (hl x)) []
      obtain ⟨d', h1, h2⟩ := C50_document (s := autoformatLeading c (Char.ofNat 0xFEFF :: f.leading) ++
          (nodesStringify (autoformatNodes c ns) 0 ++
            (autoformatTrailing c.noComments f.trailing ++ (if !ns.isEmpty then [] else ['\n'])))).mpr ⟨_, by
        rcases e with e | e
        · exact Or.inl (by rw [e])
        · exact Or.inr (by rw [e]; rfl), ht⟩
      refine ⟨d', ?_, canonDoc_lift (by rw [h2]; rfl)⟩
      rw [← h1]
      congr 1
      simp [Document.prependLeading, Document.display, Document.nodes, Document.format, Document.autoformatConfig, Document.stringify, autoformatDocFmt]

/-! ### Parsed documents -/

/-- The text contains no slashdash. -/
def NoSlash (s : Str) : Prop := ¬ ['/', '-'] <:+: s

omit [FloatIO] in
theorem NoSlash.right {a b : Str} (h : NoSlash (a ++ b)) : NoSlash b := fun ⟨p, q, e⟩ => h ⟨a ++ p, q, by rw [← e]; simp⟩

omit [FloatIO] in
theorem noSlash_head {q : Str} (h : NoSlash ('/' :: '-' :: q)) : False := h ⟨[], q, rfl⟩

omit [FloatIO] in
theorem Spec.LSpace.append {r w L : Str} (h : LSpace (L ++ r) w) (hL : LSpace r L) : LSpace r (w ++ L) := by
  induction h with
  | nil => exact hL
  | space h1 _ ih => exact .space h1 ih
  | comment ha _ ih =>
    have := LSpace.comment ha ih
    simpa using this
  | cont hb hm _ ih =>
    have := LSpace.cont hb (by rw [List.append_assoc]; exact hm) ih
    simpa using this
  | newline hm _ ih =>
    have := LSpace.newline (by rw [List.append_assoc]; exact hm) ih
    simpa using this
  | line hm _ ih =>
    have := LSpace.line (by rw [List.append_assoc]; exact hm) ih
    simpa using this

theorem lead_plain {r L : Str} (h : Text .lead r L) (hn : NoSlash L) : LSpace r L := by
  generalize hc : Cat.lead = c at h
  induction h with
  | leadNil => exact .nil
  | leadSpace hw _ ih => exact hw.append (ih hn.right rfl)
  | leadNode => exact absurd hn noSlash_head
  | _ => cases hc

theorem mid_plain {k : Bool} {r w : Str} (h : Text (.mid k) r w) (hn : NoSlash w) : NSpace r w := by
  cases h with
  | midSpace h => exact h
  | midEntries h1 hne h2 h3 =>
    obtain ⟨q, rfl⟩ := h2.slash
    exact (noSlash_head hn.right).elim
  | midKeyword h1 hne h2 =>
    obtain ⟨q, rfl⟩ := h2.slash
    exact (noSlash_head hn.right).elim
  | midBlocks h1 hne h2 h3 =>
    cases h2 <;> exact (noSlash_head hn.right).elim
  | midBoth h1 hne h2 h3 hne' h4 h5 =>
    obtain ⟨q, rfl⟩ := h2.slash
    exact (noSlash_head hn.right).elim

mutual
/-- The texts around the node are white space and comments. -/
inductive QuietNode : Node → Prop
  | mk {ty : Option Ident} {name : Ident} {es : List Entry} {ch : Option Document} {f : NodeFmt} {span : Span}
      (h1 : ∃ r, LSpace r f.leading) (h2 : ∃ r, NSpace r f.beforeTerminator) (h3 : ∀ d, ch = some d → QuietDoc d) :
      QuietNode (.mk ty name es ch (some f) span)
/-- The same for a document. -/
inductive QuietDoc : Document → Prop
  | mk {ns : List Node} {f : DocFmt} {span : Span} (h1 : ∃ r, LSpace r f.leading) (h2 : ∃ r, LSpace r f.trailing)
      (h3 : ∀ n ∈ ns, QuietNode n) : QuietDoc (.mk ns (some f) span)
end

omit [FloatIO] in
theorem mem_nodesNotes {ns : List Node} {n : Node} (hn : n ∈ ns) {t : Str} (ht : t ∈ nodeNotes n) : t ∈ nodesNotes ns := by
  induction ns with
  | nil => cases hn
  | cons m ns ih =>
    rw [nodesNotes]
    rcases List.mem_cons.mp hn with rfl | hn
    · exact List.mem_append_left _ ht
    · exact List.mem_append_right _ (ih hn)

/-- What is shown for each category. -/
def QuietGoal : TCat → Prop
  | .node _ n => (∀ t ∈ nodeNotes n, NoSlash t) → (∃ r, LSpace r (leadOf n)) → QuietNode n
  | .items ns tr => (∀ n ∈ ns, ∀ t ∈ nodeNotes n, NoSlash t) → NoSlash tr → (∀ n, ns.head? = some n → ∃ r, LSpace r (leadOf n)) →
      (∀ n ∈ ns, QuietNode n) ∧ ∃ r, LSpace r tr
  | .nodes d => (∀ t ∈ docNotes d, NoSlash t) → QuietDoc d

theorem Tree.headFormat {n : Node} {ns : List Node} {tr r t : Str} (h : Tree (.items (n :: ns) tr) r t) :
    leadOf n ∈ nodeNotes n := by
  have : ∃ f, n.format = some f := by
    generalize hc : TCat.items (n :: ns) tr = c at h
    cases h with
    | last hB _ => cases hc; exact hB.format
    | lastTerm hB _ _ _ => cases hc; exact hB.format
    | lastSlash hB _ _ => cases hc; exact hB.format
    | cons hB _ _ _ _ _ => cases hc; exact hB.format
    | _ => cases hc
  obtain ⟨f, hf⟩ := this
  cases n with
  | mk _ _ _ _ f2 _ =>
    obtain rfl : f2 = some f := hf
    simp [nodeNotes, leadOf, Node.format]

theorem Tree.quiet {c : TCat} {r t : Str} (h : Tree c r t) : QuietGoal c := by
  induction h with
  | @leaf k ty name es f span tt nt T w r h1 hn h2 h3 h4 h5 h6 =>
    intro hs hl
    refine .mk hl ⟨r, ?_⟩ (by simp)
    rw [h5]
    exact mid_plain h4 (hs w (by simp [nodeNotes, h5]))
  | @leafKeyword ty name es e fe f span tt nt T w t r h1 hn h2 h3 hf hl hd hw hE h5 h6 =>
    intro hs hl
    refine .mk hl ⟨r, ?_⟩ (by simp)
    rw [h5]
    exact .nil
  | @block k ty name es d f span tt nt T w D v u r h1 hn h2 h3 h4 hw hd h6 hu h7 h8 ih =>
    intro hs hl
    refine .mk hl ⟨r, ?_⟩ ?_
    · rcases h6 with e | ⟨w, C, e, _, hC⟩
      · rw [e]; exact .nil
      · have hn : NoSlash f.beforeTerminator := hs _ (by simp [nodeNotes])
        rw [e] at hn
        cases hC <;> exact (noSlash_head hn.right).elim
    · rintro _ ⟨⟩
      exact ih fun t ht => hs t (by simp [nodeNotes, optNotes, ht])
  | @last k r B n hB ht ih =>
    intro hs _ hh
    exact ⟨by simpa using ih (hs n (by simp)) (hh n rfl), r, .nil⟩
  | @lastTerm k r B m L n hB hm hL ht ih =>
    intro hs htr hh
    exact ⟨by simpa using ih (hs n (by simp)) (hh n rfl), r, lead_plain hL htr⟩
  | @lastSlash r q B n hB hL ht ih =>
    intro hs htr hh
    exact absurd htr noSlash_head
  | @cons k r B m L T tr n n2 ns hB hm hL ht hT h2 ihB ihT =>
    intro hs htr hh
    have hl2 : NoSlash L := by
      rw [← h2]
      exact hs n2 (by simp) _ hT.headFormat
    obtain ⟨i1, i2⟩ := ihT (fun m hm => hs m (List.mem_cons_of_mem _ hm)) htr (by rintro _ ⟨⟩; rw [h2]; exact ⟨_, lead_plain hL hl2⟩)
    refine ⟨?_, i2⟩
    intro m hm
    rcases List.mem_cons.mp hm with rfl | hm
    · exact ihB (hs _ (by simp)) (hh _ rfl)
    · exact i1 m hm
  | @empty r L f span hL h1 h2 =>
    intro hs
    refine .mk ⟨r, ?_⟩ ⟨r, ?_⟩ (by simp)
    · rw [h1]; exact lead_plain hL (hs L (by simp [docNotes, h1]))
    · rw [h2]; exact .nil
  | @items r L T f span n ns hL hT h1 h2 ih =>
    intro hs
    have hl : NoSlash L := by
      rw [← h1]
      exact hs _ (by simp [docNotes, nodesNotes, hT.headFormat])
    obtain ⟨i1, i2⟩ := ih (fun m hm t ht => hs t (by
        have := mem_nodesNotes hm ht
        simp [docNotes, this])) (hs _ (by simp [docNotes])) (by rintro _ ⟨⟩; rw [h1]; exact ⟨_, lead_plain hL hl⟩)
    refine .mk ⟨[], ?_⟩ i2 i1
    rw [h2]
    exact .nil

mutual
theorem NodeRun.neat {total : Nat} {whole : Str} : ∀ {n : Node}, NodeRun total whole n → NodeWritable n → QuietNode n → NeatNode n
  | _, .mk h1 h2 h3 h4 h5 h6 h7 h8, .mk w1 w2 w3 w4, .mk q1 q2 q3 =>
    .mk w1 w2 (fun e he => by
        obtain ⟨s, r, hs, h⟩ := h3 e he
        obtain ⟨f, hf, hk⟩ := nodeEntry_keep h
        refine ⟨?_, (w3 e he).name, ?_, (w3 e he).value⟩
        · rintro f' e'
          rw [hf] at e'
          cases e'
          exact hk
        · intro t ht
          exact nodeEntry_shown h t (by simp [entryIdents, ht]))
      (fun f hf => by
        cases hf
        obtain ⟨s, r, _, h⟩ := h6
        obtain ⟨r2, q2⟩ := q2
        exact ⟨fun t ht => tailP_term h ht, by rw [h7]; rintro _ ⟨⟩, Or.inl q1, Or.inl ⟨r2, _, q2, rfl⟩⟩)
      (fun d hd => DocRun.neat (h8 d hd) (w4 d hd) (q3 d hd))
theorem DocRun.neat {total : Nat} {whole : Str} : ∀ {d : Document}, DocRun total whole d → DocWritable d → QuietDoc d → NeatDoc d
  | _, .mk h1 h2 h3, .mk w, .mk q1 q2 q3 =>
    .mk (fun f hf => by cases hf; exact ⟨Or.inl q1, Or.inl q2⟩) (fun n hn => NodeRun.neat (h1 n hn) (w n hn) (q3 n hn))
end

/-- **C14**, partial: a parsed document whose recorded texts contain no slashdash,
formatted with or without its comments, with any indent made of KDL white space, prints
to a text that is accepted and has the same data. If the text starts with a byte order
mark, it must be formatted at level 0 or without comments (`C14_violated_bom`). Missing
from C14: texts with slashdashes between nodes (`C14_violated_slashdash` shows that it
does not hold for all of them), and strings that cannot be written
(`C14_violated_string`). -/
theorem C14_comments_partial [LawfulFloatIO] {s : Str} {d : Document} (h : Document.parse s = .ok d)
    (hw : DocWritable d) (hs : ∀ t ∈ docNotes d, ¬ ['/', '-'] <:+: t) {c : FormatConfig} (hk : c.entryKeep = false)
    (hi : ∀ x ∈ c.indent, Space x) (hb : c.indentLevel = 0 ∨ c.noComments = true ∨ ∀ q, s ≠ Char.ofNat 0xFEFF :: q) :
    ∃ d', Document.parse (d.autoformatConfig c).display = .ok d' ∧ semDoc canonValue d' = semDoc canonValue d := by
  obtain ⟨b, d0, hb0, h1, e0⟩ := parse_run h
  obtain ⟨D, d1, h2, he⟩ := parse_exact h
  have hn0 : d0.nodes = d.nodes := by rw [e0]; rfl
  have hn1 : d1.nodes = d.nodes := by rcases he with ⟨_, e⟩ | ⟨_, e⟩ <;> rw [e] <;> rfl
  have hq : QuietDoc d1 := by
    refine h2.quiet fun t ht => ?_
    rcases he with ⟨_, e⟩ | ⟨_, e⟩
    · exact hs t (e ▸ ht)
    · obtain ⟨ns, f, span⟩ := d1
      subst e
      cases f with
      | none => exact hs t ht
      | some f =>
        simp only [docNotes, Option.toList_some, List.map_cons, List.map_nil, List.cons_append, List.nil_append, List.mem_append,
          List.mem_cons, List.not_mem_nil, or_false] at ht
        rcases ht with rfl | ht | rfl
        · exact NoSlash.right (a := [Char.ofNat 0xFEFF]) (hs _ (by simp [Document.prependLeading, docNotes, Document.format]))
        · exact hs _ (by simp [Document.prependLeading, docNotes, Document.format, Document.nodes, ht])
        · exact hs _ (by simp [Document.prependLeading, docNotes, Document.format])
  have hd : NeatDoc d1 := by
    cases hq with
    | mk q1 q2 q3 =>
      refine .mk (fun f hf => by cases hf; exact ⟨Or.inl q1, Or.inl q2⟩) fun n hn => ?_
      cases h1 with
      | mk r1 r2 r3 =>
        cases hw with
        | mk w =>
          obtain rfl := hn0
          obtain rfl := hn1
          exact NodeRun.neat (r1 n hn) (w n hn) (q3 n hn)
  rcases he with ⟨_, rfl⟩ | ⟨rfl, rfl⟩
  · exact NeatDoc.parse hk hi hd
  · have hb : c.indentLevel = 0 ∨ c.noComments = true := by
      rcases hb with hb | hb | hb
      · exact .inl hb
      · exact .inr hb
      · exact absurd rfl (hb D)
    obtain ⟨d', h', e'⟩ := NeatDoc.parse_bom hk hi hb hd fun f hf => by
      cases hq with
      | mk q1 _ _ => cases hf; exact q1
    exact ⟨d', h', by rw [e']; cases d1; rfl⟩

/-- What is shown for each category: the recorded texts, apart from the text before a
node, are part of the source. -/
def NotesGoal (t : Str) : TCat → Prop
  | .node _ n => ∀ x ∈ nodeNotes n, x = leadOf n ∨ x <:+: t
  | .items ns tr => tr <:+: t ∧ ∀ x ∈ nodesNotes ns, (∃ n, ns.head? = some n ∧ x = leadOf n) ∨ x <:+: t
  | .nodes d => ∀ x ∈ docNotes d, x <:+: t

omit [FloatIO] in
theorem infix_left {a b x : Str} (h : x <:+: a) : x <:+: a ++ b := h.trans (List.prefix_append a b).isInfix

omit [FloatIO] in
theorem infix_right {a b x : Str} (h : x <:+: b) : x <:+: a ++ b := h.trans (List.suffix_append a b).isInfix

theorem Tree.notes {c : TCat} {r t : Str} (h : Tree c r t) : NotesGoal t c := by
  induction h with
  | @leaf k ty name es f span tt nt T w r h1 hn h2 h3 h4 h5 h6 =>
    intro x hx
    simp only [nodeNotes, optNotes, Option.toList_some, List.map_cons, List.map_nil, List.append_nil, List.flatMap_cons, List.flatMap_nil,
      List.cons_append, List.nil_append, List.mem_cons, List.not_mem_nil, or_false, h5, h6] at hx
    rcases hx with rfl | rfl | rfl
    · exact .inl rfl
    · exact .inr (infix_right (infix_right (infix_right (List.infix_refl _))))
    · exact .inr List.nil_infix
  | @leafKeyword ty name es e fe f span tt nt T w t r h1 hn h2 h3 hf hl hd hw hE h5 h6 =>
    intro x hx
    simp only [nodeNotes, optNotes, Option.toList_some, List.map_cons, List.map_nil, List.append_nil, List.flatMap_cons, List.flatMap_nil,
      List.cons_append, List.nil_append, List.mem_cons, List.not_mem_nil, or_false, h5, h6] at hx
    rcases hx with rfl | rfl | rfl
    · exact .inl rfl
    · exact .inr List.nil_infix
    · exact .inr List.nil_infix
  | @block k ty name es d f span tt nt T w D v u r h1 hn h2 h3 h4 hw hd h6 hu h7 h8 ih =>
    intro x hx
    simp only [nodeNotes, optNotes, Option.toList_some, List.map_cons, List.map_nil, List.append_nil, List.flatMap_cons, List.flatMap_nil,
      List.cons_append, List.nil_append, List.mem_cons, List.mem_append, List.not_mem_nil, or_false, h8] at hx
    rcases hx with rfl | hx | rfl | rfl
    · exact .inl rfl
    · exact .inr (infix_right (infix_right (infix_right (infix_right (infix_right (a := ['{']) (infix_left (ih x hx)))))))
    · refine .inr (infix_right (infix_right (infix_right (infix_right (infix_right (a := ['{']) (infix_right (infix_right (a := ['}']) ?_)))))))
      rw [h7]
      exact infix_left (List.infix_refl _)
    · exact .inr List.nil_infix
  | @last k r B n hB ht ih =>
    refine ⟨List.nil_infix, fun x hx => ?_⟩
    rcases ih x (by simpa [nodesNotes] using hx) with h | h
    · exact .inl ⟨n, rfl, h⟩
    · exact .inr h
  | @lastTerm k r B m L n hB hm hL ht ih =>
    refine ⟨infix_right (infix_right (List.infix_refl _)), fun x hx => ?_⟩
    rcases ih x (by simpa [nodesNotes] using hx) with h | h
    · exact .inl ⟨n, rfl, h⟩
    · exact .inr (infix_left h)
  | @lastSlash r q B n hB hL ht ih =>
    refine ⟨infix_right (List.infix_refl _), fun x hx => ?_⟩
    rcases ih x (by simpa [nodesNotes] using hx) with h | h
    · exact .inl ⟨n, rfl, h⟩
    · exact .inr (infix_left h)
  | @cons k r B m L T tr n n2 ns hB hm hL ht hT h2 ihB ihT =>
    refine ⟨infix_right (infix_right (infix_right ihT.1)), fun x hx => ?_⟩
    rw [nodesNotes] at hx
    rcases List.mem_append.mp hx with hx | hx
    · rcases ihB x hx with h | h
      · exact .inl ⟨n, rfl, h⟩
      · exact .inr (infix_left h)
    · refine .inr (infix_right (infix_right ?_))
      rcases ihT.2 x hx with ⟨_, ⟨⟩, h⟩ | h
      · rw [h, h2]; exact infix_left (List.infix_refl _)
      · exact infix_right h
  | @empty r L f span hL h1 h2 =>
    intro x hx
    simp only [docNotes, nodesNotes, Option.toList_some, List.map_cons, List.map_nil, List.cons_append, List.nil_append, List.mem_cons,
      List.not_mem_nil, or_false, h1, h2] at hx
    rcases hx with rfl | rfl
    · exact List.infix_refl _
    · exact List.nil_infix
  | @items r L T f span n ns hL hT h1 h2 ih =>
    intro x hx
    simp only [docNotes, Option.toList_some, List.map_cons, List.map_nil, List.cons_append, List.nil_append, List.mem_cons,
      List.mem_append, List.not_mem_nil, or_false, h2] at hx
    rcases hx with rfl | hx | rfl
    · exact List.nil_infix
    · rcases ih.2 x hx with ⟨_, ⟨⟩, h⟩ | h
      · rw [h, h1]; exact infix_left (List.infix_refl _)
      · exact infix_right h
    · exact infix_right ih.1

/-- The recorded texts of a parsed document are parts of the source. -/
theorem parse_notes {s : Str} {d : Document} (h : Document.parse s = .ok d) : ∀ t ∈ docNotes d, t <:+: s := by
  obtain ⟨D, d1, h2, ⟨rfl, rfl⟩ | ⟨rfl, rfl⟩⟩ := parse_exact h
  · exact h2.notes
  · intro t ht
    obtain ⟨ns, f, span⟩ := d1
    obtain ⟨f, rfl⟩ : ∃ f', f = some f' := h2.formatDoc
    have key := h2.notes
    simp only [Document.prependLeading, Document.format, Document.nodes, Option.map_some, docNotes, Option.toList_some, List.map_cons,
      List.map_nil, List.cons_append, List.nil_append, List.mem_cons, List.mem_append, List.not_mem_nil, or_false] at ht
    rcases ht with rfl | ht | rfl
    · generalize hc : TCat.nodes (.mk ns (some f) span) = c at h2
      cases h2 with
      | empty hL h1 h2 => cases hc; rw [h1]; exact List.infix_refl _
      | items hL hT h1 h2 => cases hc; rw [h2]; exact (List.prefix_append [Char.ofNat 0xFEFF] _).isInfix
      | _ => cases hc
    · exact infix_right (a := [Char.ofNat 0xFEFF]) (key t (by simp [docNotes, ht]))
    · exact infix_right (a := [Char.ofNat 0xFEFF]) (key _ (by simp [docNotes]))

/-- **C14**, partial: for an accepted text without a slashdash, the document formatted
with or without its comments, with any indent made of KDL white space, prints to a text
that is accepted and has the same data. What is missing is as for
`C14_comments_partial`. -/
theorem C14_text_partial [LawfulFloatIO] {s : Str} {d : Document} (h : Document.parse s = .ok d) (hw : DocWritable d)
    (hs : ¬ ['/', '-'] <:+: s) {c : FormatConfig} (hk : c.entryKeep = false) (hi : ∀ x ∈ c.indent, Space x)
    (hb : c.indentLevel = 0 ∨ c.noComments = true ∨ ∀ q, s ≠ Char.ofNat 0xFEFF :: q) :
    ∃ d', Document.parse (d.autoformatConfig c).display = .ok d' ∧ semDoc canonValue d' = semDoc canonValue d :=
  C14_comments_partial h hw (fun t ht hx => hs (hx.trans (parse_notes h t ht))) hk hi hb

/-- C14 is violated: a document with a byte order mark, formatted at level 1, has the mark
after the indentation and is rejected. -/
theorem C14_violated_bom : ∃ s d, Document.parse s = .ok d ∧
    Document.parse (d.autoformatConfig { FormatConfig.builder with indentLevel := 1 }).display = .err := by
  obtain ⟨d, h1, h2⟩ := ParseResult.holds_ok (r := Document.parse [Char.ofNat 0xFEFF, 'a'])
    (f := fun d : Document => decide ((d.autoformatConfig { FormatConfig.builder with indentLevel := 1 }).display =
      [' ', ' ', ' ', ' ', Char.ofNat 0xFEFF, '\n', ' ', ' ', ' ', ' ', ' ', ' ', ' ', ' ', 'a', '\n'])) (by krfl)
  refine ⟨_, d, h1, ?_⟩
  rw [of_decide_eq_true h2]
  krfl

end

/-- What parsing `// x⏎a "x" /* y */ ; b` gives. -/
def sampleCommented : Document :=
  .mk [.mk none ⟨['a'], some ['a'], ⟨5, 1⟩⟩
        [{ ty := none, name := none, value := .string ['x'], format := some { valueRepr := ['"', 'x', '"'], leading := [' '] },
           span := ⟨7, 3⟩ }]
        none (some { leading := ['/', '/', ' ', 'x', '\n'], beforeTerminator := [' ', '/', '*', ' ', 'y', ' ', '*', '/', ' '], terminator := [';'] }) ⟨5, 14⟩,
      .mk none ⟨['b'], some ['b'], ⟨21, 1⟩⟩ [] none (some { leading := [' '] }) ⟨21, 1⟩]
    (some {}) ⟨5, 17⟩

example [FloatIO] : Document.parse "// x\na \"x\" /* y */ ; b".toList = .ok sampleCommented := by krfl

/-- It meets the hypotheses of `C14_comments_partial`. -/
example : DocWritable sampleCommented ∧ ∀ t ∈ docNotes sampleCommented, ¬ ['/', '-'] <:+: t := by
  refine ⟨.mk ?_, by decide⟩
  intro n hn
  rcases List.mem_cons.mp hn with rfl | hn
  · refine .mk (by rintro _ ⟨⟩) (Writable.of_head (by decide) (by decide)) ?_ (by rintro _ ⟨⟩)
    intro e he
    rw [List.mem_singleton.mp he]
    exact ⟨by rintro _ ⟨⟩, by rintro _ ⟨⟩, Writable.of_head (by decide) (by decide)⟩
  · rw [List.mem_singleton.mp hn]
    exact .mk (by rintro _ ⟨⟩) (Writable.of_head (by decide) (by decide)) (by rintro _ ⟨⟩) (by rintro _ ⟨⟩)

end Kdl
