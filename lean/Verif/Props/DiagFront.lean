import Verif.Lemmas.DiagMoved
import Verif.Props.Diag
import Verif.Props.Concat
/-
C80: the diagnostics of a text that follows accepted text; C78 for any text after the closing brace.
-/

namespace Kdl
open Spec

section
variable [FloatIO]

/-- **C80**, partial: what is reported about a text is reported, about the same places, if accepted text and an
empty line are put in front of it, and nothing else. Missing: an accepted text whose last node is directly followed by a slashdash
(`C80_violated_slashdash`, `C80_slashdash`); how often a mistake is reported (`C80_violated_again`); and where an unclosed
comment is reported (second case of `Moved`, `C80_violated_comment`). -/
theorem C80_partial {t u : Str} {ds : List (SNode Value)} (h : Gives t ds) (hs : ¬ SlashTail ds t)
    (hm : ∀ q, u ≠ Char.ofNat 0xFEFF :: q) :
    ((∃ d, Document.parseD u = .ok d) → ∃ d, Document.parseD (t ++ ("\n\n".toList ++ u)) = .ok d) ∧
    ∀ es, Document.parseD u = .err es → ∃ es', Document.parseD (t ++ ("\n\n".toList ++ u)) = .err es' ∧
      (∀ d ∈ es, ∃ d' ∈ es', Moved (utf8Len t + 2) d d') ∧ (∀ d' ∈ es', ∃ d ∈ es, Moved (utf8Len t + 2) d d') := by
  obtain ⟨t', e, h⟩ := C50_document.mp h
  have ho : Onward (t' ++ ('\n' :: '\n' :: u)) u := by
    rcases nodes_onward h with h | ⟨L, T, rfl, hL, hT⟩
    · exact h u
    · exact absurd ⟨L, T, e, hL, hT⟩ hs
  have hk : utf8Len (t ++ "\n\n".toList) = utf8Len t + 2 := utf8Len_append _ _
  have key := alike_moved (p := t ++ "\n\n".toList) (u := u) (C39_diagnosed _).1.2.2 (C39_diagnosed _).1.2.2 (by
    refine document_alike (s := t' ++ ('\n' :: '\n' :: u)) ho ?_ hm
    rcases e with rfl | rfl
    · refine Or.inl ⟨by simp, fun q e => ?_⟩
      obtain ⟨_, h0, _⟩ := h.reads (Or.inl rfl) 0
      rw [List.append_nil] at h0
      cases t with
      | nil => cases e
      | cons c t => exact nodesF_not_bom h0 t (by rw [(List.cons.inj e).1])
    · exact Or.inr (by simp))
  rw [hk] at key
  simpa only [List.append_assoc] using key

/-- **C80** for texts without slashdashes in the accepted text. -/
theorem C80_no_slashdash {t u : Str} {ds : List (SNode Value)} (h : Gives t ds) (hs : ¬ Contains t "/-".toList)
    (hm : ∀ q, u ≠ Char.ofNat 0xFEFF :: q) :
    ((∃ d, Document.parseD u = .ok d) → ∃ d, Document.parseD (t ++ ("\n\n".toList ++ u)) = .ok d) ∧
    ∀ es, Document.parseD u = .err es → ∃ es', Document.parseD (t ++ ("\n\n".toList ++ u)) = .err es' ∧
      (∀ d ∈ es, ∃ d' ∈ es', Moved (utf8Len t + 2) d d') ∧ (∀ d' ∈ es', ∃ d ∈ es, Moved (utf8Len t + 2) d d') := by
  refine C80_partial h ?_ hm
  rintro ⟨L, T, e, _, hT⟩
  obtain ⟨p, q, rfl⟩ := slashItems_contains hT
  rcases e with rfl | rfl
  · exact hs ⟨L ++ p, q, by simp⟩
  · exact hs ⟨Char.ofNat 0xFEFF :: (L ++ p), q, by simp⟩

/-- What is left over behind the nodes of a text begins with a character that is reported, and the text behind it is
reported about as a text of its own. -/
theorem left_over {p t' u : Str} {c : Char} (e : (p ++ c :: u = t' ∧ ∀ q, t' ≠ Char.ofNat 0xFEFF :: q) ∨ p ++ c :: u = Char.ofNat 0xFEFF :: t')
    (h : ∀ total, ∃ d, nodesF total (baseNode total) t' = .ok d (c :: u)) :
    ∃ es', Document.parseD (p ++ c :: u) =
        .err (⟨⟨utf8Len p, c.utf8Size⟩, some "Expected end of document", some "not EOF", none⟩ :: es') ∧
      ((∃ d, Document.parseD u = .ok d) ∧ es' = [] ∨
        ∃ es, Document.parseD u = .err es ∧ es'.length = es.length ∧ ∀ x ∈ es.zip es', Moved (utf8Len p + c.utf8Size) x.1 x.2) := by
  have hS : p ++ c :: u = (p ++ [c]) ++ u := by simp
  have hk : utf8Len (p ++ [c]) = utf8Len p + c.utf8Size := utf8Len_append _ _
  generalize hn : utf8Len (p ++ c :: u) = total
  have hlen : (p ++ c :: u).length = p.length + u.length + 1 := by simp; omega
  have np : Document.parseD (p ++ c :: u) ≠ .panic := (C39_diagnosed _).1.2.2
  obtain ⟨d, hd⟩ := h total
  obtain ⟨b, hb⟩ : ∃ b, D.lift (.opt (.takeP bomL)) (p ++ c :: u) [] = .ok b t' [] := by
    rcases e with ⟨e, e'⟩ | e <;> rw [e]
    · exact ⟨_, noBom_run e' []⟩
    · exact ⟨_, D.lift_run (.opt (.takeP .bom)) (opt_some (takeP_eq (a := ()) (t := [Char.ofNat 0xFEFF]) (lit_ok.mpr rfl))) []⟩
  let st : Rec := ({ label := some "EOF", message := some "Expected end of document" }, ⟨c :: u, u⟩)
  have run : ∃ f : Document → Document, documentDN total (p.length + u.length + 1 + 1) (p ++ c :: u) [] =
      match documentDN total (p.length + u.length + 1) u [] with
      | .ok d r l => .ok (f d) r (st :: l)
      | .back e r l => .back e r (st :: l)
      | .cut e g r l => .cut e g r (st :: l)
      | .crash => .crash := by
    have he : docEndD (documentDN total (p.length + u.length + 1)) (c :: u) [] =
        (D.void (documentDN total (p.length + u.length + 1))) u [st] := rfl
    have ha := (DTr.documentDN total id (p.length + u.length + 1)).after u [st]
    rw [documentDN]
    unfold documentDF
    rw [D.bind_run hb, D.bind_run (nodesD_run total hd []), D.bind_def, he]
    unfold D.void
    rw [D.bind_def, ha]
    refine ⟨fun _ => match b with
      | some b => d.prependLeading b
      | none => d, ?_⟩
    cases documentDN total (p.length + u.length + 1) u [] <;> cases b <;> rfl
  obtain ⟨f, run⟩ := run
  have e1 : Rec.diagnostic total st = ⟨⟨utf8Len p, c.utf8Size⟩, some "Expected end of document", some "not EOF", none⟩ := by
    have e1 : utf8Len (p ++ c :: u) - utf8Len (c :: u) = utf8Len p := by
      simp only [utf8Len, List.map_append, List.map_cons, List.sum_append, List.sum_cons]
      omega
    have e2 : utf8Len (c :: u) - utf8Len u = c.utf8Size := by
      simp only [utf8Len, List.map_cons, List.sum_cons]
      omega
    simp [st, Rec.diagnostic, spanOf, ← hn, e1, e2]
  have recs : ∀ {l : List Rec}, (∀ y ∈ l, y.2.In u) →
      ∀ x ∈ (l.map (Rec.diagnostic (utf8Len u))).zip (l.map (Rec.diagnostic total)), Moved (utf8Len p + c.utf8Size) x.1 x.2 := by
    intro l hl x hp
    rw [List.zip_map'] at hp
    obtain ⟨y, hy, rfl⟩ := List.mem_map.mp hp
    have := moved_in (p := p ++ [c]) (hl y hy)
    rw [hk, ← hS, hn] at this
    exact this
  have same := same_documentDN (utf8Len u) total (n := u.length + 1) (m := u.length + 1) (k := p.length + u.length + 1)
    (Nat.le_refl _) (by omega) u [] (Nat.lt_succ_self _)
  have hrun := parseD_run np
  rw [hlen, hn, run] at hrun
  rcases parseD_run (u := u) (C39_diagnosed u).1.2.2 with ⟨d, hu, eu⟩ | ⟨d, l, hu, hne, hin, eu⟩ |
    ⟨e, g, r, l, hu, hin, hg, hr, he, eu⟩ <;> rw [hu] at same
  · obtain ⟨d2, e2, _⟩ := same
    rw [e2] at hrun
    rcases hrun with ⟨d3, h3, eS⟩ | ⟨d3, l3, h3, _, _, eS⟩ | ⟨e, g, r, l3, h3, _, _, _, _, eS⟩ <;> cases h3
    refine ⟨[], ?_, Or.inl ⟨⟨d, eu⟩, rfl⟩⟩
    rw [eS, List.map_cons, e1]; rfl
  · obtain ⟨d2, e2, _⟩ := same
    rw [e2] at hrun
    rcases hrun with ⟨d3, h3, eS⟩ | ⟨d3, l3, h3, _, _, eS⟩ | ⟨e, g, r, l3, h3, _, _, _, _, eS⟩ <;> cases h3
    refine ⟨l.map (Rec.diagnostic total), ?_, Or.inr ⟨_, eu, by simp, recs hin⟩⟩
    rw [eS, List.map_cons, e1]
  · obtain ⟨e2, _⟩ := same
    rw [e2] at hrun
    rcases hrun with ⟨d3, h3, eS⟩ | ⟨d3, l3, h3, _, _, eS⟩ | ⟨e, g, r, l3, h3, _, _, _, _, eS⟩ <;> cases h3
    refine ⟨(l ++ [(e, located g (p ++ c :: u) r)]).map (Rec.diagnostic total), ?_, Or.inr ⟨_, eu, by simp, ?_⟩⟩
    · rw [eS, List.cons_append, List.map_cons, e1]
    · intro x hp
      rw [List.map_append, List.map_append, List.zip_append (by simp)] at hp
      rcases List.mem_append.mp hp with hp | hp
      · exact recs hin x hp
      · obtain rfl := List.mem_singleton.mp hp
        cases g with
        | none =>
          have := moved_comment (p := p ++ [c]) hr (he rfl)
          rw [hk, ← hS, hn] at this
          exact this
        | some y =>
          have := moved_in (p := p ++ [c]) (y := (e, y)) (hg y rfl)
          rw [hk, ← hS, hn] at this
          exact this

/-- **C78** for any text after the closing brace: the brace is reported, and whatever is reported about that text,
in the same order. -/
theorem C78_any {t u : Str} {ds : List (SNode Value)} (h : Gives t ds) :
    ∃ es', Document.parseD (t ++ '\n' :: '}' :: u) =
        .err (⟨⟨utf8Len t + 1, 1⟩, some "Expected end of document", some "not EOF", none⟩ :: es') ∧
      ((∃ d, Document.parseD u = .ok d) ∧ es' = [] ∨
        ∃ es, Document.parseD u = .err es ∧ es'.length = es.length ∧ ∀ p ∈ es.zip es', Moved (utf8Len t + 2) p.1 p.2) := by
  obtain ⟨t', e, h⟩ := C50_document.mp h
  have hn (total : Nat) : ∃ d, nodesF total (baseNode total) (t' ++ '\n' :: '}' :: u) = .ok d ('}' :: u) := by
    obtain ⟨d, hd, _⟩ := (nodes_n h u).reads (Or.inr ⟨_, rfl⟩) total
    exact ⟨d, by simpa using hd⟩
  have key := left_over (p := t ++ ['\n']) (u := u) (t' := t' ++ '\n' :: '}' :: u) (by
    rcases e with rfl | rfl
    · refine Or.inl ⟨by simp, fun q e => ?_⟩
      obtain ⟨_, h0⟩ := hn 0
      exact nodesF_not_bom h0 q e
    · exact Or.inr (by simp)) hn
  have e1 : utf8Len (t ++ ['\n']) = utf8Len t + 1 := utf8Len_append _ _
  have e2 : '}'.utf8Size = 1 := rfl
  rw [e1, e2] at key
  simpa only [List.append_assoc, List.cons_append, List.nil_append] using key

/-- **C80** behind a node that is directly followed by a slashdash, where it is violated: if there is a node in the
second text, the first character of it is reported, and whatever is reported about the rest of that text. -/
theorem C80_slashdash {t L u : Str} {c : Char} {ds : List (SNode Value)} (h : SlashTail ds t) (hL : Text .lead (c :: u) L) (hs : Start c) :
    ∃ es', Document.parseD (t ++ ("\n\n".toList ++ (L ++ c :: u))) =
        .err (⟨⟨utf8Len t + 2 + utf8Len L, c.utf8Size⟩, some "Expected end of document", some "not EOF", none⟩ :: es') ∧
      ((∃ d, Document.parseD u = .ok d) ∧ es' = [] ∨
        ∃ es, Document.parseD u = .err es ∧ es'.length = es.length ∧
          ∀ x ∈ es.zip es', Moved (utf8Len t + 2 + utf8Len L + c.utf8Size) x.1 x.2) := by
  obtain ⟨K, T, e, hK, hT⟩ := h
  have hn := slashTail_nodes hK hT hL ⟨c, u, rfl, hs⟩
  have key := left_over (p := t ++ ("\n\n".toList ++ L)) (u := u) (by
    rcases e with rfl | rfl
    · refine Or.inl ⟨by simp, fun q e => ?_⟩
      obtain ⟨_, h0⟩ := hn 0
      exact nodesF_not_bom h0 q e
    · exact Or.inr (by simp)) hn
  have e1 : utf8Len (t ++ ("\n\n".toList ++ L)) = utf8Len t + 2 + utf8Len L := by
    rw [utf8Len_append, utf8Len_append, ← Nat.add_assoc]
    rfl
  rw [e1] at key
  simpa only [List.append_assoc] using key

end

section
attribute [local instance] rustFloatIO

/-- C80 is violated after a node that is directly followed by a slashdash: the two texts are accepted, but the first
node of the second is reported. -/
theorem C80_violated_slashdash : Gives "a #true/-b".toList [.mk none ['a'] [⟨none, none, .bool true⟩] none] ∧
    Gives ['c'] [.mk none ['c'] [] none] ∧ Document.parseD ("a #true/-b".toList ++ ("\n\n".toList ++ ['c'])) =
      .err [⟨⟨12, 1⟩, some "Expected end of document", some "not EOF", none⟩] :=
  ⟨gives_iff.mpr (by krfl), gives_iff.mpr (by krfl), by krfl⟩

/-- The hypotheses of `C80_slashdash`, and what is reported: the text behind the first character of the node is read
as if it began there. -/
theorem C80_example_slashdash : SlashTail [.mk none ['a'] [⟨none, none, .bool true⟩] none] "a #true/-b".toList ∧
    Start 'c' ∧ Document.parseD ("a #true/-b".toList ++ ("\n\n".toList ++ ([' '] ++ 'c' :: " 1x".toList))) =
      .err [⟨⟨13, 1⟩, some "Expected end of document", some "not EOF", none⟩,
        ⟨⟨15, 2⟩, some "Found invalid node name", some "not node name",
          some "This can be any string type, including a quoted, raw, or multiline string, as well as a plain identifier string."⟩] := by
  have hg : Gives "a #true/-b".toList [.mk none ['a'] [⟨none, none, .bool true⟩] none] := gives_iff.mpr (by krfl)
  have hc : Gives ['c'] [.mk none ['c'] [] none] := gives_iff.mpr (by krfl)
  refine ⟨Classical.byContradiction fun hs => ?_, Or.inl (by decide), by krfl⟩
  obtain ⟨d, h, _⟩ := (C61_exact hg hc (by simp)).1.mpr (Or.inl hs)
  rw [C61_violated.2.2] at h
  cases h

/-- C80 is violated by the number of diagnostics: a mistake in a slashdashed node is reported once more if a node
precedes it. -/
theorem C80_violated_again : ∃ m l hp, Gives ['a'] [.mk none ['a'] [] none] ∧
    Document.parseD "/-1x".toList = .err [⟨⟨2, 2⟩, m, l, hp⟩] ∧
    Document.parseD ("a".toList ++ ("\n\n".toList ++ "/-1x".toList)) = .err [⟨⟨5, 2⟩, m, l, hp⟩, ⟨⟨5, 2⟩, m, l, hp⟩] :=
  ⟨some "Found invalid node name", some "not node name",
    some "This can be any string type, including a quoted, raw, or multiline string, as well as a plain identifier string.",
    gives_iff.mpr (by krfl), by krfl, by krfl⟩

/-- C80 is violated by an unclosed comment: it is reported at the beginning of the text, whatever precedes it. -/
theorem C80_violated_comment : ∃ m l, Gives ['a'] [.mk none ['a'] [] none] ∧
    Document.parseD "/*x".toList = .err [⟨⟨0, 3⟩, m, l, none⟩] ∧
    Document.parseD ("a".toList ++ ("\n\n".toList ++ "/*x".toList)) = .err [⟨⟨0, 6⟩, m, l, none⟩] :=
  ⟨some "Expected closing of multi-line comment", some "not closing of multi-line comment", gives_iff.mpr (by krfl), by krfl, by krfl⟩

/-- The hypotheses of `C80_partial`, and what it is about. -/
example : ∃ es', Document.parseD "é /-1 #true;\n\nb {\nc 1x".toList = .err es' ∧
    ∃ d' ∈ es', Moved 15 ⟨⟨6, 2⟩, some "Expected integer", some "not integer",
      some "A valid value was partially parsed, but was not followed by a value terminator. Did you want a space here?"⟩ d' := by
  have hg : Gives "é /-1 #true;".toList [.mk none ['é'] [⟨none, none, .bool true⟩] none] := gives_iff.mpr (by krfl)
  have hc : Gives ['c'] [.mk none ['c'] [] none] := gives_iff.mpr (by krfl)
  have hs : ¬ SlashTail [.mk none ['é'] [⟨none, none, .bool true⟩] none] "é /-1 #true;".toList := by
    intro hs
    have h2 : Document.parse ("é /-1 #true;".toList ++ ("\n\n".toList ++ ['c'])) = .err :=
      (C61_exact hg hc (by simp)).2 hs (by simp)
    have h3 : (match Document.parse ("é /-1 #true;".toList ++ ("\n\n".toList ++ ['c'])) with
      | .ok _ => true
      | _ => false) = true := by krfl
    rw [h2] at h3
    cases h3
  obtain ⟨es', h1, h2, _⟩ := (C80_partial hg hs (u := "b {\nc 1x".toList) (by intro q e; exact absurd (List.cons.inj e).1 (by decide))).2 _
    (show Document.parseD "b {\nc 1x".toList = .err [⟨⟨6, 2⟩, some "Expected integer", some "not integer", some "A valid value was partially parsed, but was not followed by a value terminator. Did you want a space here?"⟩,
      ⟨⟨2, 1⟩, some "No closing '}' for child block", some "not closed", none⟩,
      ⟨⟨3, 5⟩, some "Closing '}' was not found after nodes", some "not closed", none⟩] by krfl)
  exact ⟨es', h1, h2 _ (List.mem_cons_self ..)⟩

example : Document.parseD "é\n\nb {\nc 1x".toList = .err [⟨⟨10, 2⟩, some "Expected integer", some "not integer", some "A valid value was partially parsed, but was not followed by a value terminator. Did you want a space here?"⟩,
      ⟨⟨6, 1⟩, some "No closing '}' for child block", some "not closed", none⟩,
      ⟨⟨7, 5⟩, some "Closing '}' was not found after nodes", some "not closed", none⟩] := by krfl

/-- The hypothesis of `C78_any`, with a text that is not accepted after the brace. -/
example : ∃ d', Document.parseD "é\n}{}".toList =
      .err [⟨⟨3, 1⟩, some "Expected end of document", some "not EOF", none⟩, d'] ∧ d'.span.offset = 4 := by
  obtain ⟨es', h1, h2⟩ := C78_any (t := ['é']) (u := "{}".toList) (ds := [.mk none ['é'] [] none]) (gives_iff.mpr (by krfl))
  have h : Document.parseD "{}".toList = .err [⟨⟨0, 1⟩, some "Found child block instead of node name", some "not node name",
    some "Did you forget to add the node name itself? Or perhaps terminated the node before its child block?"⟩] := by krfl
  rcases h2 with ⟨⟨d, h2⟩, _⟩ | ⟨es, h2, h3, h4⟩
  · rw [h] at h2; cases h2
  · rw [h] at h2
    cases h2
    match es', h3 with
    | [d'], _ =>
      obtain ⟨_, _, _, h5 | ⟨h5, _⟩⟩ := h4 _ (List.mem_singleton.mpr rfl)
      · exact ⟨d', h1, by rw [h5]; rfl⟩
      · exact absurd (Option.some.inj h5) (by decide)

end

end Kdl
