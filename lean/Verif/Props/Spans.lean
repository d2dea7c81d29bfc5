import Verif.Lemmas.Parser.Parts
import Verif.Lemmas.KernelRfl
import Verif.Spec.Spans
/-
C36: the spans of parsed documents, nodes, entries and identifiers.
-/

namespace Kdl
open Spec

theorem utf8Len_append (a b : Str) : utf8Len (a ++ b) = utf8Len a + utf8Len b := by
  simp [utf8Len]

/-- The span of what was read between two positions selects it. -/
theorem selects_spanOf {whole s r t : Str} (hs : Sub whole s) (e : s = t ++ r) :
    Selects whole (spanOf (utf8Len whole) s r) t := by
  obtain ⟨a, rfl⟩ := hs
  subst e
  refine ⟨a, r, by simp, ?_, ?_⟩
  · simp only [spanOf, utf8Len_append]; omega
  · simp only [spanOf, utf8Len_append]; omega

section
variable [FloatIO]

/-- What C36 says about a part of a document read from `s`. -/
def Spec.SpanOk (s : Str) : Part → Prop
  | .ident i => ∃ t, i.repr = some t ∧ Selects s i.span t
  | .entry e => ∃ f t, e.format = some f ∧ e.display = f.leading ++ t ∧ Selects s e.span t
  | .node sp => ∃ t, Selects s sp t
  | .doc sp => ∃ t, Selects s sp t

theorem identifier_span {whole s r : Str} {i : Ident} (hs : Sub whole s)
    (h : identifier (utf8Len whole) s = .ok i r) : ∃ t, i.repr = some t ∧ Selects whole i.span t := by
  obtain ⟨t, _, e, h1, h2, _⟩ := identifier_inv h
  rw [h2]
  exact ⟨t, h1, selects_spanOf hs e⟩

theorem PartsOk.spans (whole : Str) : PartsOk (utf8Len whole) whole (SpanOk whole) where
  ident hs h := identifier_span hs h
  entry := by
    intro s r e hs h
    obtain ⟨h1, f, hf, h2, h3⟩ := nodeEntry_text h
    rw [nodeEntry_unfold] at h
    obtain ⟨l, s1, e', h4, h5, rfl⟩ := nodeEntryF_inv h
    have hs1 := hs.step (Sfx.entryLeading' _) h4
    obtain ⟨t, ht⟩ := (Strict.entryBody _).sfx _ _ _ h5
    have e1 := entryLeadingF_text (Strict.nodeEntry _).sfx h4
    obtain ⟨f', hf', _⟩ := entryBody_text h5
    have hfl : f.leading = l := by
      rw [hf'] at hf
      cases hf
      rfl
    refine ⟨f, t, hf, ?_, selects_spanOf hs1 ht⟩
    apply List.append_cancel_right (bs := r)
    rw [← h1, hfl, List.append_assoc, ← ht, e1]
  node hs h := by obtain ⟨t, ht⟩ := h; exact ⟨t, selects_spanOf hs ht⟩
  doc hs h := by obtain ⟨t, ht⟩ := h; exact ⟨t, selects_spanOf hs ht⟩

/-- **C36**: after `KdlDocument::parse(s)`, the span of every identifier (node name,
property name, type annotation, at any depth) selects exactly the identifier's own
text; the span of every entry selects what the entry prints after its leading text;
the spans of nodes and children blocks select a part of `s`. -/
theorem C36_document {s : Str} {d : Document} (h : Document.parse s = .ok d) :
    ∀ p ∈ docParts d, SpanOk s p :=
  documentP_parts (PartsOk.spans s) h

/-- C36 for `KdlNode::parse`. -/
theorem C36_node {s : Str} {n : Node} (h : Node.parse s = .ok n) : ∀ p ∈ nodeParts n, SpanOk s p :=
  nodeParse_parts (PartsOk.spans s) h

/-- C36 for `KdlEntry::parse`: the identifiers as above, the entry itself is the
whole text. -/
theorem C36_entry {s : Str} {e : Entry} (h : Entry.parse s = .ok e) :
    Selects s e.span e.display ∧ ∀ i ∈ entryIdents e, SpanOk s (.ident i) := by
  refine ⟨?_, entryParse_idents (PartsOk.spans s) h⟩
  rw [Entry.parse_text h]
  have h := tryParse_ok.mp h
  unfold paddedNodeEntry at h
  simp only [bind_here, bind_ok] at h
  obtain ⟨l, s1, h1, e', s2, h2, t, s3, h3, h⟩ := h
  obtain ⟨rfl, rfl⟩ := pure_ok.mp h
  exact selects_spanOf (Sub.refl s) (by simp)

/-- C36 for `KdlIdentifier::parse`: the identifier is the whole text. -/
theorem C36_identifier {s : Str} {i : Ident} (h : Ident.parse s = .ok i) :
    i.repr = some s ∧ Selects s i.span s := by
  obtain ⟨t, _, e, h1, h2, _⟩ := identifier_inv (tryParse_ok.mp h)
  rw [List.append_nil] at e
  subst e
  rw [h2]
  exact ⟨h1, selects_spanOf (Sub.refl _) (by simp)⟩

end

/-- The identifiers of a parsed document with their spans. -/
def identSpans [FloatIO] (s : Str) : List (Str × Nat × Nat) :=
  match Document.parse s with
  | .ok d => (docParts d).filterMap fun
    | .ident i => some (i.value, i.span.offset, i.span.len)
    | _ => none
  | _ => []

/-- A document meeting the hypothesis of `C36_document`, with multi-byte characters
in front of later parts. -/
example [FloatIO] : identSpans "é k=(ü)1 { b; }".toList =
    [(['é'], 0, 2), (['ü'], 6, 2), (['k'], 3, 1), (['b'], 13, 1)] := by krfl

end Kdl
