import Verif.Spec.Noted
import Verif.Props.Layout
import Verif.Props.Keep
/-
C84: formatted text with comments.
-/

namespace Kdl
open Spec

/-! ### Specification -/

mutual
/-- Every part has a format record, no entry is marked to be kept, and texts are recorded
only where the parser records them. -/
def Spec.SoundNode (nc : Bool) : Node → Prop
  | .mk _ _ es c f _ =>
      (∃ f', f = some f' ∧ Gone nc f'.trailing ∧ ∀ t, f'.terminator = '\n' :: t → t = []) ∧
      (∀ e ∈ es, ∀ f, e.format = some f → f.autoformatKeep = false) ∧ SoundOpt nc c
/-- As above, for children: leading text is that of the first node, if there is one. -/
def Spec.SoundOpt (nc : Bool) : Option Document → Prop
  | none => True
  | some (.mk [] f _) => ∃ f', f = some f' ∧ Gone nc f'.trailing
  | some (.mk (n :: ns) f _) => (∃ f', f = some f' ∧ Gone nc f'.leading) ∧ SoundNode nc n ∧ SoundNodes nc ns
/-- As above, for lists of nodes. -/
def Spec.SoundNodes (nc : Bool) : List Node → Prop
  | [] => True
  | n :: ns => SoundNode nc n ∧ SoundNodes nc ns
end

/-- As above, for documents. -/
def Spec.SoundDoc (nc : Bool) : Document → Prop
  | .mk ns f _ => (∃ f', f = some f' ∧ (ns = [] → Gone nc f'.trailing)) ∧ SoundNodes nc ns

/-! ### The texts -/

theorem leading_noted (c : FormatConfig) (t : Str) :
    autoformatLeading c t = unlines (frontLines c.noComments c.indent c.indentLevel t) ++ deep c.indent c.indentLevel := by
  rw [autoformatLeading_eq]
  unfold frontLines noteLines
  rw [visible_content]
  cases c.noComments
  · simp [unlines, List.flatMap_map, indentText, deep]
  · simp [unlines, indentText, deep]

theorem writeLines_unlines (ls : List Str) : writeLines ls = unlines ls := by
  induction ls with
  | nil => rfl
  | cons l ls ih => rw [writeLines, ih, unlines_cons]; simp

/-- Comment lines behind a space. -/
def noteText : List Str → Str
  | [] => []
  | l :: ls => ' ' :: unlines (l :: ls)

theorem trailing_noted (nc : Bool) (t : Str) : autoformatTrailing nc t = noteText (endLines nc t) := by
  unfold autoformatTrailing endLines noteText
  by_cases h0 : t = []
  · subst h0
    cases nc <;> rfl
  · cases nc with
    | true => simp [h0]
    | false =>
      by_cases h1 : trim t = []
      · simp [h0, h1, lines, linesAux]
      · have hl : lines (trim t) ≠ [] := by
          intro e
          have := writeLines_dropCr (trim t) h1 (trim_last h1).1
          rw [e] at this
          simp [writeLines] at this
        have e : (trim t).isEmpty = false := by simpa using h1
        simp only [List.isEmpty_iff, h0, if_false, e, Bool.not_false, Bool.and_self, if_true, trimStart_trim, writeLines_unlines,
          Bool.false_eq_true]
        cases hl' : lines (trim t) with
        | nil => exact absurd hl' hl
        | cons l ls => simp

/-- Clean lines with an indentation, trimmed as a whole. -/
theorem trim_front {ind : Str} (hi : AllWs ind) : ∀ (ls : List Str), (∀ l ∈ ls, CleanLine l) → ∀ (w : Str), AllWs w →
    trim (unlines (ls.map (ind ++ ·)) ++ w) ++ ['\n'] = (match ls with
      | [] => ['\n']
      | l :: ls => unlines (l :: ls.map (ind ++ ·)))
  | [], _, w, hw => by
    simp only [List.map_nil, unlines_nil, List.nil_append, trim_ws_all hw]
  | l :: ls, h, w, hw => by
    -- all but the white space at the ends
    have key : ∀ (ls : List Str) (l : Str), (∀ x ∈ l :: ls, CleanLine x) → ∃ X, unlines (l :: ls.map (ind ++ ·)) = X ++ ['\n'] ∧ Trimmed X ∧ X ≠ [] := by
      intro ls
      induction ls with
      | nil =>
        intro l h
        exact ⟨l, by simp [unlines], (h l (by simp)).1, (h l (by simp)).2.1⟩
      | cons m ls ih =>
        intro l h
        obtain ⟨X, h1, h2, h3⟩ := ih m fun x hx => h x (List.mem_cons_of_mem _ hx)
        rw [unlines_cons] at h1
        refine ⟨l ++ '\n' :: (ind ++ X), ?_, ?_, by simp⟩
        · rw [List.map_cons, unlines_cons, unlines_cons]
          simp only [List.append_assoc, List.cons_append]
          rw [h1]
        · obtain ⟨hl1, hl2, _⟩ := h l (by simp)
          rcases hl1 with e | ⟨⟨c, r, e1, hc⟩, _⟩
          · exact absurd e hl2
          rcases h2 with e | ⟨_, ⟨d, r', e2, hd⟩⟩
          · exact absurd e h3
          refine Or.inr ⟨⟨c, r ++ '\n' :: (ind ++ X), by rw [e1]; rfl, hc⟩, ⟨d, l ++ '\n' :: (ind ++ r'), by rw [e2]; simp, hd⟩⟩
    obtain ⟨X, h1, h2, _⟩ := key ls l h
    have e : unlines ((l :: ls).map (ind ++ ·)) ++ w = ind ++ X ++ ('\n' :: w) := by
      rw [List.map_cons, unlines_cons]
      rw [unlines_cons] at h1
      have : l ++ '\n' :: (unlines (ls.map (ind ++ ·)) ++ w) = X ++ '\n' :: w := by
        rw [← List.cons_append, ← List.append_assoc, h1]; simp
      simp only [List.append_assoc, List.cons_append]
      rw [this]
    rw [e, trim_surround _ _ _ hi (AllWs.cons (by decide) hw), trim_of_trimmed h2]
    exact h1.symm

theorem deep_ws {ind : Str} (hi : AllWs ind) (k : Nat) : AllWs (deep ind k) := by
  have := indentText_ws { FormatConfig.default with indent := ind, indentLevel := k } hi
  exact this

theorem noteLines_clean (nc : Bool) (t : Str) : ∀ l ∈ noteLines nc t, CleanLine l := by
  unfold noteLines
  cases nc
  · rw [visible_content]
    exact content_clean t
  · rintro l ⟨⟩

section
variable [FloatIO]

theorem spellEntry_shown : Spec.spellEntry = shownEntry Ident.display := rfl

mutual
theorem node_noted : ∀ (c : FormatConfig), AllWs c.indent → c.entryKeep = false → ∀ (n : Node) (i : Nat), SoundNode c.noComments n →
    (n.autoformatConfig c).stringify i = unlines (notedNode .actual c.noComments Ident.display c.indent c.indentLevel n)
  | c, hi, hk, .mk ty name es ch f sp, i, h => by
    obtain ⟨⟨f', rfl, h3, h4⟩, h5, h6⟩ := h
    have hf : autoformatNodeFmt c (some f') = { f' with
        leading := unlines (frontLines c.noComments c.indent c.indentLevel f'.leading) ++ deep c.indent c.indentLevel,
        beforeTerminator := noteText (endLines c.noComments f'.beforeTerminator),
        terminator := ['\n'], trailing := [], beforeChildren := [' '] } := by
      have ht : (autoformatNodeFmt c (some f')).terminator = ['\n'] := by
        unfold autoformatNodeFmt
        dsimp only
        split
        · rename_i t e; rw [e, h4 t e]
        · rfl
      unfold autoformatNodeFmt at ht ⊢
      dsimp only at ht ⊢
      rw [ht, leading_noted, trailing_noted, autoformatNodeTrailing, autoformatTrailing_gone h3]
      rfl
    have hcl : ∀ x : Str, unlines (NoteStyle.actual.close x c.indent c.indentLevel (endLines c.noComments f'.beforeTerminator)) =
        x ++ (noteText (endLines c.noComments f'.beforeTerminator) ++ ['\n']) := by
      intro x
      cases endLines c.noComments f'.beforeTerminator with
      | nil => simp [NoteStyle.actual, unlines, noteText]
      | cons l ls => simp [NoteStyle.actual, unlines, noteText]
    have hc := optDoc_noted c hi hk ch i h6
    simp only [Node.autoformatConfig, Node.stringify, hf]
    cases ch with
    | none =>
      simp only [notedNode, unlines_append, Option.map_some, Option.getD_some]
      rw [hcl, entries_laid c hk es h5, spellEntry_shown]
      cases ty <;> simp [layHead, layTy, plainName, Ident.clearFormat, Ident.display, autoformatOptDoc, childrenStringify]
    | some d =>
      simp only [notedNode, unlines_append, Option.map_some, Option.getD_some]
      have hc := hc (layHead id c.indent c.indentLevel (ty.map Ident.value) name.value (es.map (shownEntry Ident.display)))
      have hc' : ∀ a z : Str, a ++ unlines (notedBlock .actual c.noComments Ident.display c.indent (c.indentLevel + 1)
          (layHead id c.indent c.indentLevel (ty.map Ident.value) name.value (es.map (shownEntry Ident.display)) ++ [' ', '{']) d) ++
          (deep c.indent c.indentLevel ++ ['}'] ++ z) =
          a ++ (layHead id c.indent c.indentLevel (ty.map Ident.value) name.value (es.map (shownEntry Ident.display)) ++
            childrenStringify (autoformatOptDoc c (some d)) [' '] i) ++ z := by
        intro a z
        rw [hc]; simp
      rw [hcl, hc', entries_laid c hk es h5, spellEntry_shown]
      cases ty <;> simp [layHead, layTy, plainName, Ident.clearFormat, Ident.display]
theorem optDoc_noted : ∀ (c : FormatConfig), AllWs c.indent → c.entryKeep = false → ∀ (d : Option Document) (i : Nat), SoundOpt c.noComments d →
    (match d with
      | none => True
      | some d' => ∀ x : Str, x ++ childrenStringify (autoformatOptDoc c d) [' '] i =
        unlines (notedBlock .actual c.noComments Ident.display c.indent (c.indentLevel + 1) (x ++ [' ', '{']) d') ++
          (deep c.indent c.indentLevel ++ ['}']))
  | c, hi, hk, none, i, _ => trivial
  | c, hi, hk, some (.mk [] f sp), i, h => by
    obtain ⟨f', rfl, h2⟩ := h
    intro x
    have h2' := autoformatTrailing_gone h2
    have h1 := trim_front (deep_ws hi (c.indentLevel + 1)) (noteLines c.noComments f'.leading) (noteLines_clean _ _) _
      (deep_ws hi (c.indentLevel + 1))
    have h3 := leading_noted { c with indentLevel := c.indentLevel + 1 } f'.leading
    dsimp only at h3
    simp only [autoformatOptDoc, Document.autoformatConfig, Document.nodes, Document.format, Document.span, Option.map_some,
      childrenStringify, Document.stringify, autoformatChildFmt, autoformatDocFmt, h2', h3, frontLines, h1, notedBlock, Option.getD_some,
      autoformatNodes, nodesStringify]
    cases noteLines c.noComments f'.leading with
    | nil => simp [NoteStyle.actual, unlines, indentText, deep]
    | cons l ls => simp [NoteStyle.actual, unlines, indentText, deep]
  | c, hi, hk, some (.mk (n :: ns) f sp), i, h => by
    obtain ⟨⟨f', rfl, h1⟩, h2, h3⟩ := h
    intro x
    have hn := node_noted { c with indentLevel := c.indentLevel + 1 } hi hk n (i + 4) h2
    have hns := nodes_noted { c with indentLevel := c.indentLevel + 1 } hi hk ns (i + 4) h3
    have h1' : autoformatLeading { c with indentLevel := c.indentLevel + 1 } f'.leading =
      indentText { c with indentLevel := c.indentLevel + 1 } := autoformatLeading_gone h1
    have h4 := trailing_noted c.noComments f'.trailing
    simp only [autoformatOptDoc, Document.autoformatConfig, Document.nodes, Document.format, Document.span, Option.map_some,
      childrenStringify, Document.stringify, autoformatChildFmt, autoformatDocFmt, h1', h4, notedBlock, Option.getD_some,
      autoformatNodes, nodesStringify, hn, hns, trim_ws_all (indentText_ws { c with indentLevel := c.indentLevel + 1 } hi)]
    cases endLines c.noComments f'.trailing with
    | nil => simp [NoteStyle.actual, unlines, noteText, indentText, deep]
    | cons l ls => simp [NoteStyle.actual, unlines, noteText, indentText, deep]
theorem nodes_noted : ∀ (c : FormatConfig), AllWs c.indent → c.entryKeep = false → ∀ (ns : List Node) (i : Nat), SoundNodes c.noComments ns →
    nodesStringify (autoformatNodes c ns) i = unlines (notedNodes .actual c.noComments Ident.display c.indent c.indentLevel ns)
  | c, hi, hk, [], i, _ => rfl
  | c, hi, hk, n :: ns, i, h => by
    rw [autoformatNodes, nodesStringify, node_noted c hi hk n i h.1, nodes_noted c hi hk ns i h.2, notedNodes, unlines_append]
end

/-! ### Parsed documents -/

/-- What is shown for the parts of a document, by induction over its text. -/
def TCat.sound (nc : Bool) : TCat → Prop
  | .node _ n => BareNode true n → SoundNode nc n
  | .items ns _ => BareNodes true ns → SoundNodes nc ns
  | .nodes d => BareDoc true d → SoundOpt nc (some d)

theorem Tree.sound (nc : Bool) {c : TCat} {r t : Str} (h : Tree c r t) : c.sound nc := by
  have hg : Gone nc [] := Or.inr AllWs.nil
  induction h with
  | leaf h1 hn h2 h3 h4 h5 h6 =>
    rintro ⟨⟨f', e, _, _, _, b1⟩, b2, _⟩
    cases e
    exact ⟨⟨_, rfl, by rw [h6]; exact hg, b1⟩, b2, trivial⟩
  | leafKeyword h1 hn h2 h3 hf hl hd hw ht h5 h6 =>
    rintro ⟨⟨f', e, _, _, _, b1⟩, b2, _⟩
    cases e
    exact ⟨⟨_, rfl, by rw [h6]; exact hg, b1⟩, b2, trivial⟩
  | block h1 hn h2 h3 h4 hw hd h6 hu h7 h8 ih =>
    rintro ⟨⟨f', e, _, _, _, b1⟩, b2, b3⟩
    cases e
    exact ⟨⟨_, rfl, by rw [h8]; exact hg, b1⟩, b2, ih b3⟩
  | last _ _ ih => exact fun b => ⟨ih b.1, trivial⟩
  | lastTerm _ hm hL _ ih => exact fun b => ⟨ih b.1, trivial⟩
  | lastSlash _ hL _ ih => exact fun b => ⟨ih b.1, trivial⟩
  | cons _ hm hL _ _ _ ih1 ih2 => exact fun b => ⟨ih1 b.1, ih2 b.2⟩
  | empty hL _ h2 => exact fun _ => ⟨_, rfl, by rw [h2]; exact hg⟩
  | items hL _ _ h2 ih => exact fun b => ⟨⟨_, rfl, by rw [h2]; exact hg⟩, ih b.2⟩

/-- Parsed documents are sound. -/
theorem parse_sound {s : Str} {d : Document} (h : Document.parse s = .ok d) (nc : Bool) : SoundDoc nc d := by
  have hb := C83_parsed h (nc := true) (Or.inl rfl)
  obtain ⟨D, d', hD, e⟩ := parse_exact h
  obtain ⟨ns, f, sp⟩ := d'
  have hb' : BareDoc true (.mk ns f sp) := by
    rcases e with ⟨_, rfl⟩ | ⟨_, rfl⟩
    · exact hb
    · obtain ⟨⟨f', e, _⟩, hb⟩ := hb
      obtain ⟨f0, rfl, _⟩ : ∃ f0, f = some f0 ∧ True := by
        cases f with
        | none => cases e
        | some f0 => exact ⟨_, rfl, trivial⟩
      exact ⟨⟨f0, rfl, Or.inl rfl, Or.inl rfl⟩, hb⟩
  have hs : SoundDoc nc (.mk ns f sp) := by
    have := hD.sound nc hb'
    cases ns with
    | nil =>
      obtain ⟨f', e, h⟩ := this
      exact ⟨⟨f', e, fun _ => h⟩, trivial⟩
    | cons n ns =>
      obtain ⟨⟨f', e, _⟩, h⟩ := this
      exact ⟨⟨f', e, fun e => by cases e⟩, h⟩
  rcases e with ⟨_, rfl⟩ | ⟨_, rfl⟩
  · exact hs
  · obtain ⟨⟨f', e, h1⟩, h2⟩ := hs
    subst e
    exact ⟨⟨_, rfl, h1⟩, h2⟩

/-! ### Theorems -/

/-- **C84**, the text: a document is formatted to the lines of its data and of its comments. -/
theorem C84_text {c : FormatConfig} (hi : AllWs c.indent) (hk : c.entryKeep = false) {d : Document} (h : SoundDoc c.noComments d) :
    (d.autoformatConfig c).display =
      unlines (frontLines c.noComments c.indent c.indentLevel ((d.format.map (·.leading)).getD [])) ++ deep c.indent c.indentLevel ++
        unlines (notedBody .actual c.noComments Ident.display c.indent c.indentLevel d) := by
  obtain ⟨ns, f, sp⟩ := d
  obtain ⟨⟨f', rfl, h1⟩, h3⟩ := h
  have hn := nodes_noted c hi hk ns 0 h3
  unfold Document.display
  cases ns with
  | nil =>
    simp [Document.autoformatConfig, Document.stringify, autoformatDocFmt, leading_noted, autoformatTrailing_gone (h1 rfl), Document.format,
      autoformatNodes, nodesStringify, notedBody, unlines]
  | cons n ns =>
    simp only [Document.autoformatConfig, Option.map_some, Document.stringify, autoformatDocFmt, leading_noted, trailing_noted, hn,
      Document.format, notedBody, Option.getD_some, unlines_append]
    cases endLines c.noComments f'.trailing with
    | nil => simp [NoteStyle.actual, noteText, unlines]
    | cons l ls => simp [NoteStyle.actual, noteText, unlines]

/-- **C84**, the text of every accepted document, for every level, white-space indent, with or without comments. -/
theorem C84_parsed {s : Str} {d : Document} (h : Document.parse s = .ok d) {c : FormatConfig} (hi : AllWs c.indent)
    (hk : c.entryKeep = false) : (d.autoformatConfig c).display =
      unlines (frontLines c.noComments c.indent c.indentLevel ((d.format.map (·.leading)).getD [])) ++ deep c.indent c.indentLevel ++
        unlines (notedBody .actual c.noComments Ident.display c.indent c.indentLevel d) :=
  C84_text hi hk (parse_sound h _)

/-! ### Comments on lines of their own -/

mutual
theorem noted_aligned {nc : Bool} {q : Ident → Str} {ind : Str} : ∀ (k : Nat) (n : Node), (∀ ls ∈ besideNode nc n, ls = []) →
    notedNode .actual nc q ind k n = notedNode .aligned nc q ind k n
  | k, .mk ty name es none f sp, h => by
    have h1 := h _ (by rw [besideNode]; exact List.mem_cons_self ..)
    simp only [notedNode, h1]
    rfl
  | k, .mk ty name es (some d) f sp, h => by
    have h1 := h _ (by rw [besideNode]; exact List.mem_cons_self ..)
    have h2 := notedBlock_aligned (nc := nc) (q := q) (ind := ind) (k + 1)
      (layHead id ind k (ty.map Ident.value) name.value (es.map (shownEntry q)) ++ [' ', '{']) d
      (fun ls hl => h ls (by rw [besideNode]; exact List.mem_cons_of_mem _ hl))
    simp only [notedNode, h1, h2]
    rfl
theorem notedBlock_aligned {nc : Bool} {q : Ident → Str} {ind : Str} : ∀ (k : Nat) (first : Str) (d : Document), (∀ ls ∈ besideOpt nc (some d), ls = []) →
    notedBlock .actual nc q ind k first d = notedBlock .aligned nc q ind k first d
  | k, first, .mk [] f sp, h => by
    have h1 := h _ (by rw [besideOpt]; exact List.mem_cons_self ..)
    simp only [notedBlock, h1]
    rfl
  | k, first, .mk (n :: ns) f sp, h => by
    have h1 := h (endLines nc ((f.map (·.trailing)).getD [])) (by simp [besideOpt])
    have h2 := noted_aligned (nc := nc) (q := q) (ind := ind) k n fun ls hl => h ls (by simp [besideOpt, hl])
    have h3 := notedNodes_aligned (nc := nc) (q := q) (ind := ind) k ns fun ls hl => h ls (by simp [besideOpt, hl])
    simp only [notedBlock, h1, h2, h3]
    rfl
theorem notedNodes_aligned {nc : Bool} {q : Ident → Str} {ind : Str} : ∀ (k : Nat) (ns : List Node), (∀ ls ∈ besideNodes nc ns, ls = []) →
    notedNodes .actual nc q ind k ns = notedNodes .aligned nc q ind k ns
  | k, [], _ => rfl
  | k, n :: ns, h => by
    rw [notedNodes, notedNodes, noted_aligned k n fun ls hl => h ls (by simp [besideNodes, hl]),
      notedNodes_aligned k ns fun ls hl => h ls (by simp [besideNodes, hl])]
end

/-- **C84**, partial. Full statement: without the condition on the comments (`C84_violated_end`, `C84_violated_empty`,
`C84_violated_behind`). If all comments that are kept stand in front of nodes, every one of them gets lines of its own,
indented like the node behind it. -/
theorem C84_partial {s : Str} {d : Document} (h : Document.parse s = .ok d) {c : FormatConfig} (hi : AllWs c.indent)
    (hk : c.entryKeep = false) (hb : ∀ ls ∈ besideDoc c.noComments d, ls = []) : (d.autoformatConfig c).display =
      unlines (frontLines c.noComments c.indent c.indentLevel ((d.format.map (·.leading)).getD [])) ++ deep c.indent c.indentLevel ++
        unlines (notedBody .aligned c.noComments Ident.display c.indent c.indentLevel d) := by
  rw [C84_parsed h hi hk]
  congr 2
  obtain ⟨ns, f, sp⟩ := d
  cases ns with
  | nil => rfl
  | cons n ns =>
    have h1 := hb (endLines c.noComments ((f.map (·.trailing)).getD [])) (by simp [besideDoc])
    have h2 := notedNodes_aligned (nc := c.noComments) (q := Ident.display) (ind := c.indent) c.indentLevel (n :: ns)
      fun ls hl => hb ls (by simp [besideDoc, hl])
    simp only [notedBody, h1, h2]
    rfl

/-! ### Everything else is without effect -/

mutual
/-- Only the comments of `notedNode` and the texts of annotations of entries are left. -/
def Spec.bareNode : Node → Node
  | .mk ty name es ch f sp =>
    .mk (ty.map fun i => { i with repr := none }) { name with repr := none }
      (es.map fun e => { e with format := none, name := e.name.map fun i => { i with repr := none } }) (bareOpt ch)
      (f.map fun f => { leading := f.leading, beforeTerminator := f.beforeTerminator }) sp
/-- As above, for children. -/
def Spec.bareOpt : Option Document → Option Document
  | none => none
  | some d => some (bareDoc d)
/-- As above, for documents. -/
def Spec.bareDoc : Document → Document
  | .mk ns f sp => .mk (bareNodes ns) f sp
/-- As above, for lists of nodes. -/
def Spec.bareNodes : List Node → List Node
  | [] => []
  | n :: ns => bareNode n :: bareNodes ns
end

mutual
theorem bareNode_sound {nc : Bool} : ∀ n : Node, SoundNode nc n → SoundNode nc (bareNode n)
  | .mk ty name es ch f sp, h => by
    obtain ⟨⟨f', rfl, _⟩, _, h3⟩ := h
    refine ⟨⟨_, rfl, Or.inr AllWs.nil, by rintro t ⟨⟩⟩, ?_, bareOpt_sound ch h3⟩
    intro e he f hf
    obtain ⟨e', _, rfl⟩ := List.mem_map.mp he
    cases hf
theorem bareOpt_sound {nc : Bool} : ∀ d : Option Document, SoundOpt nc d → SoundOpt nc (bareOpt d)
  | none, _ => trivial
  | some (.mk [] f sp), h => h
  | some (.mk (n :: ns) f sp), ⟨h1, h2, h3⟩ => ⟨h1, bareNode_sound n h2, bareNodes_sound ns h3⟩
theorem bareNodes_sound {nc : Bool} : ∀ ns : List Node, SoundNodes nc ns → SoundNodes nc (bareNodes ns)
  | [], _ => trivial
  | n :: ns, ⟨h1, h2⟩ => ⟨bareNode_sound n h1, bareNodes_sound ns h2⟩
end

theorem shown_bare (es : List Entry) : (es.map fun e : Entry =>
      { e with format := none, name := e.name.map fun i => { i with repr := none } }).map (shownEntry Ident.display) =
    es.map (shownEntry Ident.display) := by
  rw [List.map_map]
  refine List.map_congr_left fun e _ => ?_
  obtain ⟨ty, v, nm, f, sp⟩ := e
  cases nm <;> rfl

mutual
theorem noted_bare {nc : Bool} {ind : Str} : ∀ (k : Nat) (n : Node),
    notedNode .actual nc Ident.display ind k (bareNode n) = notedNode .actual nc Ident.display ind k n
  | k, .mk ty name es none f sp => by
    rw [bareNode, bareOpt, notedNode, notedNode, shown_bare]
    cases ty <;> cases f <;> rfl
  | k, .mk ty name es (some d) f sp => by
    have h := fun first => notedBlock_bare (nc := nc) (ind := ind) (k + 1) first d
    rw [bareNode, bareOpt, notedNode, notedNode, shown_bare, h]
    cases ty <;> cases f <;> rfl
theorem notedBlock_bare {nc : Bool} {ind : Str} : ∀ (k : Nat) (first : Str) (d : Document),
    notedBlock .actual nc Ident.display ind k first (bareDoc d) = notedBlock .actual nc Ident.display ind k first d
  | k, first, .mk [] f sp => rfl
  | k, first, .mk (n :: ns) f sp => by
    rw [bareDoc, bareNodes, notedBlock, notedBlock, noted_bare k n, notedNodes_bare k ns]
theorem notedNodes_bare {nc : Bool} {ind : Str} : ∀ (k : Nat) (ns : List Node),
    notedNodes .actual nc Ident.display ind k (bareNodes ns) = notedNodes .actual nc Ident.display ind k ns
  | k, [] => rfl
  | k, n :: ns => by rw [bareNodes, notedNodes, notedNodes, noted_bare k n, notedNodes_bare k ns]
end

/-- **C15**, the rest: of everything that is recorded in a parsed document besides its data, formatting uses only the texts
in front of nodes, between a node and its terminator, and at the ends of documents and blocks, and the texts of the
annotations of entries. All other comments (before entries, inside annotations, before a block, and at the end of a line)
are without effect: they are lost, in every document. -/
theorem C15_rest_lost {s : Str} {d : Document} (h : Document.parse s = .ok d) {c : FormatConfig} (hi : AllWs c.indent)
    (hk : c.entryKeep = false) : (d.autoformatConfig c).display = ((bareDoc d).autoformatConfig c).display := by
  have hs := parse_sound h c.noComments
  have hs' : SoundDoc c.noComments (bareDoc d) := by
    obtain ⟨ns, f, sp⟩ := d
    obtain ⟨⟨f', rfl, h1⟩, h2⟩ := hs
    refine ⟨⟨f', rfl, fun e => h1 ?_⟩, bareNodes_sound ns h2⟩
    cases ns with
    | nil => rfl
    | cons n ns => cases e
  rw [C84_text hi hk hs, C84_text hi hk hs']
  obtain ⟨ns, f, sp⟩ := d
  congr 2
  cases ns with
  | nil => rfl
  | cons n ns =>
    have := notedNodes_bare (nc := c.noComments) (ind := c.indent) c.indentLevel (n :: ns)
    rw [bareNodes] at this
    rw [bareDoc, bareNodes, notedBody, notedBody, this]

/-! ### Examples -/

/-- C84 is violated: a comment behind the last node is indented by one space, at every depth. -/
theorem C84_violated_end :
    (∃ d, Document.parse "a\n// c\n".toList = .ok d ∧ d.autoformat.display = "a\n // c\n".toList) ∧
    (∃ d, Document.parse "a {\n  b\n  // c\n}\n".toList = .ok d ∧ d.autoformat.display = "a {\n    b\n // c\n}\n".toList) := by
  obtain ⟨d0, h0, e0⟩ := ParseResult.holds_ok (r := Document.parse "a\n// c\n".toList)
    (f := fun d : Document => decide (d.autoformat.display = "a\n // c\n".toList)) (by krfl)
  obtain ⟨d1, h1, e1⟩ := ParseResult.holds_ok (r := Document.parse "a {\n  b\n  // c\n}\n".toList)
    (f := fun d : Document => decide (d.autoformat.display = "a {\n    b\n // c\n}\n".toList)) (by krfl)
  exact ⟨⟨d0, h0, of_decide_eq_true e0⟩, ⟨d1, h1, of_decide_eq_true e1⟩⟩

/-- C84 is violated: a comment in a block without nodes is put behind the brace. -/
theorem C84_violated_empty :
    (∃ d, Document.parse "a {\n  // c\n}\n".toList = .ok d ∧ d.autoformat.display = "a {// c\n\n}\n".toList) := by
  obtain ⟨d0, h0, e0⟩ := ParseResult.holds_ok (r := Document.parse "a {\n  // c\n}\n".toList)
    (f := fun d : Document => decide (d.autoformat.display = "a {// c\n\n}\n".toList)) (by krfl)
  exact ⟨d0, h0, of_decide_eq_true e0⟩

/-- C84 is violated: a comment between a node and the end of its line is followed by an empty
line. -/
theorem C84_violated_behind :
    (∃ d, Document.parse "a /* c */\nb\n".toList = .ok d ∧ d.autoformat.display = "a /* c */\n\nb\n".toList) := by
  obtain ⟨d0, h0, e0⟩ := ParseResult.holds_ok (r := Document.parse "a /* c */\nb\n".toList)
    (f := fun d : Document => decide (d.autoformat.display = "a /* c */\n\nb\n".toList)) (by krfl)
  exact ⟨d0, h0, of_decide_eq_true e0⟩

/-- C84, concrete case: comments in front of nodes, at two depths, are what `C84_partial` asks for. -/
theorem C84_example : ∃ d, Document.parse "// x\n  //y\na {\n// z\n\n   b 1\n}\n/* w */ c\n".toList = .ok d ∧
    (∀ ls ∈ besideDoc false d, ls = []) ∧
    d.autoformat.display = "// x\n//y\na {\n    // z\n    b 1\n}\n/* w */\nc\n".toList := by
  obtain ⟨d, h, e⟩ := ParseResult.holds_ok
    (r := Document.parse "// x\n  //y\na {\n// z\n\n   b 1\n}\n/* w */ c\n".toList)
    (f := fun d : Document => (besideDoc false d).all (·.isEmpty) &&
      decide (d.autoformat.display = "// x\n//y\na {\n    // z\n    b 1\n}\n/* w */\nc\n".toList)) (by krfl)
  rw [Bool.and_eq_true, List.all_eq_true] at e
  exact ⟨d, h, fun ls hl => List.isEmpty_iff.mp (e.1 ls hl), of_decide_eq_true e.2⟩

/-- C15, concrete case: the comment in front of `a` is kept, the three behind it are lost. -/
theorem C15_rest_example : ∃ d, Document.parse "// k\na /*x*/ 1 /*y*/ { b; } // z\n".toList = .ok d ∧
    d.autoformat.display = "// k\na 1 {\n    b\n}\n".toList := by
  obtain ⟨d, h, e⟩ := ParseResult.holds_ok
    (r := Document.parse "// k\na /*x*/ 1 /*y*/ { b; } // z\n".toList)
    (f := fun d : Document => decide (d.autoformat.display = "// k\na 1 {\n    b\n}\n".toList)) (by krfl)
  exact ⟨d, h, of_decide_eq_true e⟩

end
end Kdl
