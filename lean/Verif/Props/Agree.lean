import Verif.Props.Breaks
/-
C67: the parse functions agree with each other.
-/

namespace Kdl
open Spec

section
variable [FloatIO]

omit [FloatIO] in
theorem newlineSeq_mem {m x : Str} (h : NewlineSeq m x) : ∃ c ∈ m, Newline c := by
  rcases h with rfl | ⟨c, rfl, hc, _⟩
  · exact ⟨'\r', by simp, by decide⟩
  · exact ⟨c, by simp, hc⟩

omit [FloatIO] in
theorem lspace_line {r w : Str} (h : LSpace r w) (hw : ∀ c ∈ w, ¬ Newline c) :
    ∃ a m, w = a ++ m ∧ NSpace (m ++ r) a ∧ (m = [] ∨ (LineComment m r ∧ r = [])) := by
  induction h with
  | nil => exact ⟨[], [], rfl, .nil, Or.inl rfl⟩
  | space h1 _ ih =>
    obtain ⟨a, m, rfl, h2, h3⟩ := ih fun c hc => hw c (by simp [hc])
    exact ⟨_ :: a, m, rfl, .space h1 h2, h3⟩
  | @comment b t hb _ ih =>
    obtain ⟨a, m, rfl, h2, h3⟩ := ih fun c hc => hw c (by simp [hc])
    exact ⟨'/' :: '*' :: (b ++ '*' :: '/' :: a), m, by simp, .comment hb h2, h3⟩
  | @cont b n t hb hm _ ih =>
    obtain ⟨a, m, rfl, h2, h3⟩ := ih fun c hc => hw c (by simp [hc])
    exact ⟨'\\' :: (b ++ (n ++ a)), m, by simp, .cont hb (by rwa [List.append_assoc] at hm) h2, h3⟩
  | newline hm _ _ =>
    obtain ⟨c, hc, hn⟩ := newlineSeq_mem hm
    exact absurd hn (hw c (by simp [hc]))
  | @line m t hm _ ih =>
    obtain ⟨b, nl, rfl, _, h⟩ := id hm
    rcases h with h | ⟨rfl, h⟩
    · obtain ⟨c, hc, hn⟩ := newlineSeq_mem h
      exact absurd hn (hw c (by simp [hc]))
    · obtain ⟨rfl, rfl⟩ := List.append_eq_nil_iff.mp h
      refine ⟨[], _, rfl, .nil, Or.inr ⟨?_, rfl⟩⟩
      simpa using hm

omit [FloatIO] in
theorem lspace_flat {r w : Str} (h : LSpace r w) (hw : ∀ c ∈ w, ¬ Newline c) (hr : r ≠ []) : NSpace r w := by
  obtain ⟨a, m, rfl, h1, rfl | ⟨_, h2⟩⟩ := lspace_line h hw
  · simpa using h1
  · exact absurd h2 hr

/-- **C67**: what `KdlNode::parse` accepts, `KdlDocument::parse` accepts, and the document has this one node. -/
theorem C67_node {s : Str} {n : Node} (h : Node.parse s = .ok n) : Gives s [semNode id n] := by
  obtain ⟨k, L, B, M, rfl, hL, hB, hM⟩ := C50_node.mp ⟨n, h, rfl⟩
  refine C50_document.mpr ⟨_, Or.inl rfl, ?_⟩
  rcases hM with rfl | ⟨m, v, rfl, hm, hv⟩
  · have := Text.items (r := []) (by simpa using hL) (.last hB)
    simpa using this
  · have hl : Text .lead [] v := by
      have := Text.leadSpace (r := []) (w := v) (L := []) (by simpa using hv) .leadNil
      simpa using this
    have hT := Text.lastTerm (r := []) (m := m) (L := v) (by simpa using hB) (by simpa using hm) hl
    have := Text.items (r := []) (L := L) (by simpa using hL) hT
    simpa using this

/-- A text in the category `lead` without slashdash is line space. -/
theorem lead_lspace {c : Cat} {r L : Str} (h : Text c r L) (hc : c = .lead) (hs : ¬ ['/', '-'] <:+: L) : LSpace r L := by
  induction h with
  | leadNil => exact .nil
  | @leadSpace r w L hw _ ih =>
    have := ih rfl fun h => hs (h.trans (List.suffix_append _ _).isInfix)
    clear ih
    induction hw with
    | nil => exact this
    | space h1 _ ih => exact .space h1 (ih fun h => hs (h.trans (List.suffix_cons _ _).isInfix))
    | comment ha _ ih =>
      have := ih fun h => hs (h.trans ⟨'/' :: '*' :: (_ ++ ['*', '/']), [], by simp; rfl⟩)
      simpa using LSpace.comment ha this
    | @cont b m t hb hm _ ih =>
      have := ih fun h => hs (h.trans ⟨'\\' :: (b ++ m), [], by simp⟩)
      have := LSpace.cont hb (by rwa [List.append_assoc]) this
      simpa using this
    | @newline m t hm _ ih =>
      have := ih fun h => hs (h.trans ⟨m, [], by simp⟩)
      have := LSpace.newline (by rwa [List.append_assoc]) this
      simpa using this
    | @line m t hm _ ih =>
      have := ih fun h => hs (h.trans ⟨m, [], by simp⟩)
      have := LSpace.line (by rwa [List.append_assoc]) this
      simpa using this
  | leadNode => exact absurd ⟨[], _, rfl⟩ hs
  | _ => cases hc

/-- **C67, partial**: conversely, a document text with one node and without slashdash and byte order mark is accepted by
`KdlNode::parse`, with the same data. Documents with slashdashes are missing: one behind the node is an error for
`KdlNode::parse`. -/
theorem C67_document_partial {s : Str} {d : SNode Value} (h : Gives s [d]) (hs : ¬ ['/', '-'] <:+: s) (hb : ∀ q, s ≠ Char.ofNat 0xFEFF :: q) :
    ∃ n, Node.parse s = .ok n ∧ semNode id n = d := by
  rw [C50_node]
  obtain ⟨t, e, h⟩ := C50_document.mp h
  obtain rfl : s = t := e.resolve_right (hb t)
  cases h with
  | @items _ L T _ hL hT =>
    cases hT with
    | @last k _ B _ hB => exact ⟨k, L, T, [], by simp, by simpa using hL, hB, Or.inl rfl⟩
    | @lastTerm k _ B m V _ hB hm hV =>
      have hV' := lead_lspace hV rfl fun h => hs (h.trans ⟨L ++ (B ++ m), [], by simp⟩)
      exact ⟨k, L, B, m ++ V, rfl, by simpa using hL, by simpa using hB, Or.inr ⟨m, V, rfl, by simpa using hm, hV'⟩⟩
    | @lastSlash _ q B _ hB hV => exact absurd ⟨L ++ B, q, by simp⟩ hs
    | cons _ _ _ hT => cases hT

/-- **C67, partial**: what `KdlEntry::parse` accepts may stand behind a name and a space, and is the only entry of the
node then. Texts of more than one line are missing: there the entry may be on a line of its own. -/
theorem C67_entry_partial {nt nm s : Str} {e : Entry} (hn : ∃ i, Ident.parse nt = .ok i ∧ i.value = nm) (h : Entry.parse s = .ok e)
    (hs : ∀ c ∈ s, ¬ Newline c) : Gives (nt ++ ' ' :: s) [.mk none nm [semEntry id e] none] := by
  have hn := C50_identifier.mp hn
  obtain ⟨l, t, v, ht, hv, h⟩ := C50_entry.mp ⟨e, h, rfl⟩
  have hne := starts_ne (Kdl.EntryEnd.starts ht)
  have hsp : Space ' ' := by decide
  obtain ⟨w, hw, es⟩ : ∃ w, EntryLead t w ∧ ' ' :: s = w ++ (t ++ v) := by
    rcases h with ⟨rfl, h0⟩ | ⟨S, w, rfl, h1, h2, h3, h4⟩
    · exact ⟨' ' :: l, .space (.space hsp (lspace_flat h0 (fun c hc => hs c (by simp [hc])) hne)) (by simp), rfl⟩
    · exact ⟨' ' :: l ++ (S ++ w), .slash (.space hsp (lspace_flat h1 (fun c hc => hs c (by simp [hc])) (Kdl.SdEnd.ne h2))) (by simp) h2 h3 h4,
        by simp⟩
  have hv' : ∀ c ∈ v, ¬ Newline c := by
    intro c hc
    rcases h with ⟨rfl, _⟩ | ⟨S, w, rfl, _⟩ <;> exact hs c (by simp [hc])
  obtain ⟨a, m, rfl, h1, h2⟩ := lspace_line hv hv'
  rw [es]
  have hE : EntriesText [semEntry id e] (w ++ (t ++ [])) := .cons hw ht .nil
  rw [List.append_nil] at hE h1
  refine C50_document.mpr ⟨_, Or.inl rfl, ?_⟩
  have hB := Text.leaf (ty := none) .none hn hE (.midSpace h1)
  rcases h2 with rfl | ⟨h2, _⟩
  · have := Text.items (r := []) .leadNil (.last hB)
    simpa using this
  · have := Text.items (r := []) .leadNil (.lastTerm (r := []) (L := []) (m := m) (by simpa using hB) (Or.inr (Or.inr h2)) .leadNil)
    simpa using this

/-- **C67**: what `KdlIdentifier::parse` accepts is accepted as a node, and as an argument, with this string. -/
theorem C67_identifier {s : Str} {i : Ident} (h : Ident.parse s = .ok i) :
    (∃ n, Node.parse s = .ok n ∧ semNode id n = .mk none i.value [] none) ∧
      ∃ e, Entry.parse s = .ok e ∧ semEntry id e = ⟨none, none, .string i.value⟩ := by
  have h := C50_identifier.mp ⟨i, h, rfl⟩
  constructor
  · refine C50_node.mpr ⟨false, [], s, [], by simp, .leadNil, ?_, Or.inl rfl⟩
    have := Text.leaf (ty := none) (r := []) .none h .nil (.midSpace .nil)
    simpa using this
  · refine C50_entry.mpr ⟨[], s, [], ?_, .nil, Or.inl ⟨by simp, .nil⟩⟩
    have := EntryEnd.arg (k := false) (vt := s) (ty := none) .none (ValText.str h)
    simpa using this

/-- **C67 fails** as it stands: a slashdashed node after the node, and a byte order mark, are accepted in a document only;
an entry on a line of its own is accepted by `KdlEntry::parse` only. -/
theorem C67_violated : Gives "a\n/-b".toList [.mk none ['a'] [] none] ∧ Node.parse "a\n/-b".toList = .err ∧
    Gives (Char.ofNat 0xFEFF :: ['a']) [.mk none ['a'] [] none] ∧ Node.parse (Char.ofNat 0xFEFF :: ['a']) = .err ∧
    (∃ e, Entry.parse "\nx".toList = .ok e ∧ semEntry id e = ⟨none, none, .string ['x']⟩) ∧
    Gives "n \nx".toList [.mk none ['n'] [] none, .mk none ['x'] [] none] :=
  ⟨gives_iff.mpr (by krfl), by krfl, gives_iff.mpr (by krfl), by krfl, ParseResult.view_ok (by krfl), gives_iff.mpr (by krfl)⟩

theorem C67_example : (∃ n, Node.parse " n 1 { a; } // c".toList = .ok n ∧
      semNode id n = .mk none ['n'] [⟨none, none, .integer ⟨1, by decide⟩⟩] (some [.mk none ['a'] [] none])) ∧
    ∃ e, Entry.parse " /-1 k=(t)#null // c".toList = .ok e ∧ semEntry id e = ⟨some ['t'], some ['k'], .null⟩ :=
  ⟨ParseResult.view_ok (by krfl), ParseResult.view_ok (by krfl)⟩

end

end Kdl
