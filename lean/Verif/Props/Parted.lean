import Verif.Props.V2
import Verif.Props.Snug
/-
Whatever is changed in a parsed document: its printed text is accepted exactly if its nodes
are parted (C52, C35).
-/

namespace Kdl
open Spec

section
variable [FloatIO]

/-- **C52**, decided up to the slashdash of `C52_violated_slashdash`: names, annotations and entries of a
parsed document are exchanged for others that can be printed. The printed text is accepted with the data of the
changed document exactly if any two nodes in a row are parted by what the parser has recorded, and is rejected
otherwise. -/
theorem C52_exact {s : Str} {d e : Document} (h : Document.parse s = .ok d) (he : ChangedDoc d e) :
    (Gives e.display (semDoc id e) ↔ Terminated d) ∧ (Document.parse e.display = .err ↔ ¬ Terminated d) := by
  have h1 : Gives e.display (semDoc id e) ↔ Terminated d :=
    ⟨fun ⟨d2, h2, _⟩ => Classical.byContradiction fun ht => lost_changed h he ht d2 h2,
      fun ht => C52_edit_partial h (he.edited ht)⟩
  refine ⟨h1, fun h2 ht => ?_, fun ht => ?_⟩
  · obtain ⟨d2, h3, _⟩ := h1.mpr ht
    rw [h2] at h3
    cases h3
  · rcases (C06_ok_or_err e.display).1 with ⟨d2, h2⟩ | h2
    · exact absurd h2 (lost_changed h he ht d2)
    · exact h2

mutual
theorem v2Node_changed : ∀ {n : Node}, V2LooseNode n → (∀ e, Part.entry e ∈ nodeParts n → V2Fine e) → Changed n n.ensureV2
  | .mk ty name es ch f sp, h, hp => by
    cases h with
    | mk ht hn he hc =>
      refine .mk (Or.inr ?_) (Or.inr ?_) (Or.inr ?_) ?_
      · intro i hi
        cases ty with
        | none => simp at hi
        | some t =>
          obtain rfl : Ident.ofStr t.value = i := by simpa using hi
          exact StrText.ident rfl (ht t rfl)
      · exact StrText.ident rfl hn
      · intro e' h'
        obtain ⟨e, h1, rfl⟩ := List.mem_map.mp h'
        refine (hp e ?_).ensure (he e h1)
        simp only [nodeParts, List.mem_cons, List.mem_append, List.mem_flatMap]
        exact Or.inr (Or.inr (Or.inl (Or.inr ⟨e, h1, by simp [entryParts]⟩)))
      · cases ch with
        | none => exact .none
        | some d =>
          exact .some (v2Doc_changed (d := d) (hc d rfl) fun e h1 => hp e (by simp [nodeParts, childrenParts, h1]))
theorem v2Doc_changed : ∀ {d : Document}, V2LooseDoc d → (∀ e, Part.entry e ∈ docParts d → V2Fine e) → ChangedDoc d d.ensureV2
  | .mk ns f sp, h, hp => by
    cases h with
    | mk h1 h3 =>
      refine .mk (v2Nodes_changed ns h1 ?_ fun e he => hp e (by simp [docParts, he]))
      intro n hn
      rcases h3 n hn with h | h | h | h
      · exact Or.inl h
      · exact Or.inr (Or.inl h)
      · exact Or.inr (Or.inr (Or.inl h))
      · refine Or.inr (Or.inr (Or.inr ?_))
        intro q
        cases f with
        | none => simp
        | some g => exact h g q rfl
theorem v2Nodes_changed {tr : Str} : ∀ (ns : List Node), (∀ n ∈ ns, V2LooseNode n) →
    (∀ n ∈ ns.getLast?, n.entries = [] ∨ n.children.isSome = true ∨ terminatorOf n ≠ [] ∨ ∀ q, tr ≠ '/' :: '-' :: q) →
    (∀ e, Part.entry e ∈ nodesParts ns → V2Fine e) → ChangedNodes tr ns (ensureNodes ns)
  | [], _, _, _ => .nil
  | [n], h, hl, hp => by
    refine .last (v2Node_changed (h n (by simp)) fun e he => hp e (by simp [nodesParts, he])) ?_
    rcases hl n (by simp) with h1 | h1
    · refine Or.inl ?_
      obtain ⟨ty, name, es, ch, f, sp⟩ := n
      have : es = [] := h1
      subst this
      rfl
    · exact Or.inr h1
  | n :: n2 :: ns, h, hl, hp =>
    .cons (v2Node_changed (h n (by simp)) fun e he => hp e (by simp [nodesParts, he]))
      (v2Nodes_changed (n2 :: ns) (fun m hm => h m (by simp [hm]))
        (fun m hm => hl m (by simpa [List.getLast?_cons_cons] using hm)) fun e he => hp e (by
          rw [nodesParts]; exact List.mem_append_right _ he))
end

/-- **C35**, documents whose strings survive: the text printed after `ensure_v2` is accepted with the same data exactly
if any two nodes in a row are parted by what the parser has recorded, and is rejected otherwise. -/
theorem C35_document_exact {s : Str} {d : Document} (h : Document.parse s = .ok d) (hk : V2LooseDoc d) :
    (Gives d.ensureV2.display (semDoc id d) ↔ Terminated d) ∧ (Document.parse d.ensureV2.display = .err ↔ ¬ Terminated d) := by
  have := C52_exact h (v2Doc_changed hk (documentParse_fine h))
  rwa [semDoc_ensureV2] at this

omit [FloatIO] in
mutual
theorem Spec.V2Node.loose : ∀ {n : Node}, V2Node n → V2LooseNode n
  | .mk _ _ _ none _ _, h => by
    cases h with
    | mk h1 h2 h3 _ => exact .mk h1 h2 h3 (by simp)
  | .mk _ _ _ (some d) _ _, h => by
    cases h with
    | mk h1 h2 h3 h4 =>
      refine .mk h1 h2 h3 ?_
      rintro _ ⟨⟩
      exact Spec.V2Doc.loose (h4 d rfl)
theorem Spec.V2Doc.loose : ∀ {d : Document}, V2Doc d → V2LooseDoc d
  | .mk ns _ _, h => by
    cases h with
    | mk h1 _ h3 => exact .mk (looseNodes ns h1) h3
theorem looseNodes : ∀ (ns : List Node), (∀ n ∈ ns, V2Node n) → ∀ n ∈ ns, V2LooseNode n
  | [], _, _, hm => by simp at hm
  | n :: ns, h, m, hm => by
    have h1 := Spec.V2Node.loose (h n (by simp))
    rcases List.mem_cons.mp hm with e | hm
    · rw [e]; exact h1
    · exact looseNodes ns (fun x hx => h x (by simp [hx])) m hm
end

/-- The first node gets the name `x`. -/
def nameFirstX : Document → Document
  | .mk (n :: ns) f sp => .mk (n.setName (.ofStr ['x']) :: ns) f sp
  | d => d

theorem nameFirstX_changed (d : Document) : ChangedDoc d (nameFirstX d) := by
  have key : ∀ n : Node, Changed n (n.setName (.ofStr ['x'])) := by
    rintro ⟨ty, name, es, ch, f, sp⟩
    cases Spec.Changed.refl (.mk ty name es ch f sp) with
    | mk h1 h2 h3 h4 =>
      exact .mk (Or.inl rfl) (Or.inr (StrText.ident rfl (writableB_ok (by decide)))) (Or.inl rfl) h4
  obtain ⟨ns, f, sp⟩ := d
  match ns with
  | [] => exact .refl _
  | [n] =>
    obtain ⟨ty, name, es, ch, g, sp2⟩ := n
    exact .mk (.last (key _) (Or.inl rfl))
  | n :: m :: ns => exact .mk (.cons (key n) (.refl _ _))

/-- Nodes that are not parted, with the first one renamed: the hypotheses of the two theorems are met, and the texts are
rejected. -/
theorem C52_exact_example : ∃ d, Document.parse "a { } ;b 1".toList = .ok d ∧ ChangedDoc d (nameFirstX d) ∧ V2LooseDoc d ∧
    ¬ Terminated d ∧ (nameFirstX d).display = "x { }b 1".toList ∧ d.ensureV2.display = "a { }b 1".toList := by
  obtain ⟨d, h, e⟩ := ParseResult.holds_ok (r := Document.parse "a { } ;b 1".toList)
    (f := fun d : Document => (d.nodes.all v2NodeB && match d.format with | some f => f.trailing.isEmpty | none => true) &&
      (decide ((nameFirstX d).display = "x { }b 1".toList) && decide (d.ensureV2.display = "a { }b 1".toList))) (by krfl)
  rw [Bool.and_eq_true, Bool.and_eq_true, Bool.and_eq_true, List.all_eq_true] at e
  obtain ⟨⟨e1, e2⟩, e3, e4⟩ := e
  refine ⟨d, h, nameFirstX_changed d, ?_, (C52_exact h (nameFirstX_changed d)).2.mp ?_, of_decide_eq_true e3, of_decide_eq_true e4⟩
  · obtain ⟨ns, f, sp⟩ := d
    refine .mk (fun n hn => (v2NodeB_ok (e1 n hn)).loose) fun n _ => Or.inr (Or.inr (Or.inr ?_))
    rintro g q rfl e
    have e2 : g.trailing.isEmpty = true := e2
    rw [e] at e2
    cases e2
  · rw [of_decide_eq_true e3]
    krfl

/-- Nodes that are parted by a line break recorded with the second one. -/
theorem C52_exact_parted : ∃ d, Document.parse "a { } \n\nb 1".toList = .ok d ∧ Terminated d ∧
    (nameFirstX d).display = "x { }\nb 1".toList := by
  obtain ⟨d, h, e⟩ := ParseResult.holds_ok (r := Document.parse "a { } \n\nb 1".toList)
    (f := fun d : Document => decide ((nameFirstX d).display = "x { }\nb 1".toList)) (by krfl)
  obtain ⟨d2, h2, _⟩ := ParseResult.view_ok (r := Document.parse "x { }\nb 1".toList) (f := fun _ => ()) (b := ()) (by krfl)
  refine ⟨d, h, Classical.byContradiction fun ht => ?_, of_decide_eq_true e⟩
  have := (C52_exact h (nameFirstX_changed d)).2.mpr ht
  rw [of_decide_eq_true e, h2] at this
  cases this

end

end Kdl
