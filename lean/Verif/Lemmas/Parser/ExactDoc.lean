import Verif.Lemmas.Parser.ExactNode
/-
Every document that the parser accepts is in the grammar of `Verif.Spec.Grammar`.
-/

namespace Kdl
open Spec

section
variable [FloatIO]

/-- Nodes that start with at most `N` characters left are in the grammar. -/
def BaseOk (total N : Nat) : Prop := ∀ s r n, s.length ≤ N → nodeSpace s = .back → baseNode total s = .ok n r →
  NodeSrc total s r n

/-- What may follow the text in front of a node: the node or the end of the block. -/
def LeadEnd (total : Nat) (q : Str) : Prop := DocEnd q ∨ ∃ n y, baseNode total q = .ok n y

omit [FloatIO] in
theorem nodeTerminator_inv {q x : Str} {u : Unit} (h : nodeTerminator q = .ok u x) : ∃ m, q = m ++ x ∧ TermText m x := by
  unfold nodeTerminator at h
  rcases alt_ok.mp h with h | ⟨_, h⟩
  · exact ⟨[';'], lit_ok.mp h, Or.inl rfl⟩
  rcases alt_ok.mp h with h | ⟨_, h⟩
  · obtain ⟨m, e, hm⟩ := newline_seq_inv h
    exact ⟨m, e, Or.inr (Or.inl hm)⟩
  · obtain ⟨m, e, hm⟩ := singleLineComment_iff.mp h
    exact ⟨m, e, Or.inr (Or.inr hm)⟩

omit [FloatIO] in
theorem alt_back_inv {α : Type} {p q : P α} {s : Str} (h : (p <+> q) s = .back) : p s = .back ∧ q s = .back := by
  unfold P.alt at h
  cases hp : p s <;> rw [hp] at h <;> first | exact ⟨rfl, h⟩ | cases h

omit [FloatIO] in
theorem lineSpace_of_terminator_back {q : Str} (h1 : nodeSpace q = .back) (h2 : nodeTerminator q = .back) :
    lineSpace q = .back := by
  unfold nodeTerminator at h2
  obtain ⟨_, h2⟩ := alt_back_inv h2
  obtain ⟨h2, h3⟩ := alt_back_inv h2
  exact lineSpace_back_iff.mpr ⟨h1, h2, h3⟩

omit [FloatIO] in
theorem lineSpace_stop {x q : Str} {u : Unit} (hx : nodeSpace x = .back) (h : lineSpace x = .ok u q) : NodeStop x := by
  unfold lineSpace at h
  rw [alt_right hx] at h
  have ht : nodeTerminator x = .ok u q := by
    unfold nodeTerminator
    rcases alt_ok.mp h with h | ⟨h0, h⟩
    · obtain ⟨m, rfl, hm⟩ := newline_seq_inv h
      have : lit [';'] (m ++ q) = .back := by
        obtain ⟨c, m', rfl, hc⟩ := hm.head
        exact lit_back.mpr (by
          intro y e
          have := (List.cons.inj e).1
          subst this
          revert hc; decide)
      rw [alt_right this, alt_left h]
    · obtain ⟨q', rfl⟩ := singleLineComment_head h
      have : lit [';'] ('/' :: '/' :: q') = .back := lit_back.mpr (by intro y e; exact absurd (List.cons.inj e).1 (by decide))
      rw [alt_right this, alt_right h0, h]
  obtain ⟨c, y, rfl, hc⟩ := nodeTerminator_head ht
  refine Or.inr ⟨c, y, rfl, ?_⟩
  rcases hc with h | h | h
  · exact Or.inr (Or.inl h)
  · exact Or.inr (Or.inr (Or.inl (newlineStart_iff.mp h)))
  · exact Or.inr (Or.inr (Or.inr h))

/-- What may follow a slashdashed node. -/
theorem follow_exact {total : Nat} {x q : Str} {l : List Unit}
    (h : Rep (lineSpace <+> (do slashdash; void (baseNode total))) x l q) (hx : nodeSpace x = .back)
    (hq : LeadEnd total q) : NodeStop x ∨ (¬ Stuck total x ∧ NodeNext x) := by
  cases h with
  | nil h =>
    rcases hq with (rfl | ⟨y, rfl⟩) | ⟨n, y, hq⟩
    · exact Or.inl (Or.inl rfl)
    · exact Or.inl (Or.inr ⟨_, _, rfl, Or.inl rfl⟩)
    · exact Or.inr ⟨fun hs => hs.1 _ _ hq, Or.inl (baseNode_entry hq hx).1⟩
  | cons h _ _ =>
    rcases alt_ok.mp h with h | ⟨_, h⟩
    · exact Or.inl (lineSpace_stop hx h)
    · rw [bind_ok] at h
      obtain ⟨_, y, h1, h2⟩ := h
      obtain ⟨n, h2⟩ := void_ok.mp h2
      obtain ⟨b, rfl, _⟩ := slashdash_inv h1
      exact Or.inr ⟨fun hs => hs.2 n _ ((bind_eq h1).trans h2), Or.inr ⟨_, rfl⟩⟩

/-- The text in front of a node. -/
theorem lead_exact {total N : Nat} (hN : BaseOk total N) {s q : Str} {l : List Unit}
    (h : Rep (lineSpace <+> (do slashdash; void (baseNode total))) s l q) (hs : s.length ≤ N)
    (hq : LeadEnd total q) : ∃ L, s = L ++ q ∧ Text .lead q L := by
  induction h with
  | nil h => exact ⟨[], rfl, .leadNil⟩
  | @cons s x r a as h hl ht ih =>
    obtain ⟨L, rfl, hL⟩ := ih (by omega) hq
    rcases alt_ok.mp h with h | ⟨_, h⟩
    · obtain ⟨w, rfl, _, hw⟩ := lineSpace_inv h
      have := hw (L ++ r) [] rfl .nil
      rw [List.append_nil] at this
      exact ⟨w ++ L, by simp, .leadSpace this hL⟩
    · rw [bind_ok] at h
      obtain ⟨_, y, h1, h2⟩ := h
      obtain ⟨n, h2⟩ := void_ok.mp h2
      obtain ⟨b, rfl, hb, hy⟩ := slashdash_inv h1
      obtain ⟨B, rfl, hst, hB, hsp, hk, _⟩ := hN _ _ _ (by simp at hs; omega) (lineSpace_back_iff.mp hy).1 h2
      have hbB : LSpace B b := hb.cut (by obtain ⟨c, z, rfl, _⟩ := hst; simp)
      refine ⟨'/' :: '-' :: (b ++ (B ++ L)), by simp, ?_⟩
      rcases follow_exact ht hsp hq with hf | ⟨hf, hf'⟩
      · exact .leadNode hbB hB.text (Or.inl hf) hL
      · rcases hk with hk | hk
        · exact .leadNode hbB hk.text (Or.inr ⟨rfl, hf'⟩) hL
        · exact absurd hk hf

theorem leadingItems_inv {total : Nat} {s q l : Str} (h : leadingItems (baseNode total) s = .ok l q) :
    s = l ++ q ∧ (∃ us, Rep (lineSpace <+> (do slashdash; void (baseNode total))) s us q) ∧ lineSpace q = .back := by
  unfold leadingItems at h
  have hsfx : Sfx (rep0 (lineSpace <+> (do slashdash; void (baseNode total)))) := by
    have := (Strict.baseNode total).sfx
    psolve
  obtain ⟨e, us, h⟩ := takeP_inv hsfx h
  exact ⟨e, ⟨us, rep_of_rep0 h⟩, (alt_back_inv (rep0_stop h)).1⟩

theorem leadingItems_exact {total N : Nat} (hN : BaseOk total N) {s q l : Str} (hs : s.length ≤ N)
    (h : leadingItems (baseNode total) s = .ok l q) (hq : LeadEnd total q) : s = l ++ q ∧ Text .lead q l := by
  obtain ⟨e, ⟨us, h⟩, _⟩ := leadingItems_inv h
  obtain ⟨L, e', hL⟩ := lead_exact hN h hs hq
  have : l = L := List.append_cancel_right (e.symm.trans e')
  subst this
  exact ⟨e, hL⟩

theorem NodeSrc.lead {total : Nat} {s r : Str} {n : Node} (h : NodeSrc total s r n) (L : Str) :
    NodeSrc total s r (n.setFormat (n.format.map fun f => { f with leading := L })) := by
  obtain ⟨B, e, hst, hB, hr, hk, ht⟩ := h
  have e2 : termOf (n.setFormat (n.format.map fun f => { f with leading := L })) = termOf n := by
    obtain ⟨f, hf⟩ := hB.format
    cases n
    simp only [Node.format] at hf
    subst hf
    rfl
  have e3 : (n.setFormat (n.format.map fun f => { f with leading := L })).children = n.children := by cases n; rfl
  refine ⟨B, e, hst, hB.setLeading L, hr, hk.imp (fun h => h.setLeading L) id, ?_⟩
  rw [e2, e3]; exact ht

theorem NodeSrc.leadOf {total : Nat} {s r : Str} {n : Node} (h : NodeSrc total s r n) (L : Str) :
    leadOf (n.setFormat (n.format.map fun f => { f with leading := L })) = L := by
  obtain ⟨B, _, _, hB, _⟩ := h
  obtain ⟨f, hf⟩ := hB.format
  cases n
  simp only [Node.format] at hf
  subst hf
  rfl

theorem nodeF_inv {total : Nat} {s r : Str} {n : Node} (h : nodeF (baseNode total) s = .ok n r) :
    ∃ l q n', leadingItems (baseNode total) s = .ok l q ∧ baseNode total q = .ok n' r ∧
      n = n'.setFormat (n'.format.map fun f => { f with leading := l }) := by
  unfold nodeF at h
  rw [bind_ok] at h
  obtain ⟨l, q, h1, h⟩ := h
  rw [bind_ok] at h
  obtain ⟨n', r', h2, h⟩ := h
  obtain ⟨rfl, rfl⟩ := pure_ok.mp h
  exact ⟨l, q, n', h1, h2, rfl⟩

/-- The nodes after the first. -/
theorem items_exact {total N : Nat} (hN : BaseOk total N) {s s2 s3 r trail : Str} {ns : List Node} {o : Option Unit}
    (h : SepMore (nodeF (baseNode total)) nodeTerminator s ns s2) (ho : opt nodeTerminator s2 = .ok o s3)
    (htr : leadingItems (baseNode total) s3 = .ok trail r) (hr : DocEnd r) :
    ∀ {n : Node} {s0 : Str}, s.length ≤ N → NodeSrc total s0 s n → ∃ T, s0 = T ++ r ∧ Tree (.items (n :: ns) trail) r T := by
  have hterm : ∀ {s q : Str} {u : Unit}, s.length ≤ N → s = s2 → nodeTerminator s = .ok u q → ∀ {n s0}, NodeSrc total s0 s n →
      ∃ T, s0 = T ++ r ∧ Tree (.items [n] trail) r T := by
    rintro s q u hs rfl hq n s0 ⟨B, rfl, hst, hB, hsp, hk, ht⟩
    obtain ⟨m, rfl, hm⟩ := nodeTerminator_inv hq
    have : s3 = q := by
      rw [opt_some hq] at ho
      cases ho; rfl
    subst this
    obtain ⟨rfl, hL⟩ := leadingItems_exact hN (by simp at hs; omega) htr (Or.inl hr)
    refine ⟨B ++ (m ++ trail), by simp, .lastTerm hB hm hL ?_⟩
    rcases ht with ⟨ht, ht' | ht'⟩ | ⟨_, x, h1, h2⟩
    · rw [hq] at ht'; cases ht'
    · exact Or.inr ⟨ht, ht'⟩
    · rw [hq] at h1
      cases h1
      exact Or.inl (List.append_cancel_right h2).symm
  induction h with
  | @nil s h =>
    rintro n s0 hs ⟨B, rfl, hst, hB, hsp, hk, ht⟩
    have hn : termOf n = [] := by
      rcases ht with ht | ⟨_, x, h1, h2⟩
      · exact ht.1
      · rw [h] at h1; cases h1
    have : s3 = s := by
      rw [opt_none h] at ho
      cases ho; rfl
    subst this
    obtain ⟨e, hL⟩ := leadingItems_exact hN hs htr (Or.inl hr)
    obtain ⟨_, ⟨us, hus⟩, _⟩ := leadingItems_inv htr
    cases hus with
    | nil _ =>
      have := nil_of_self e
      subst this
      exact ⟨B, rfl, .last hB hn⟩
    | cons h1 _ _ =>
      rw [alt_right (lineSpace_of_terminator_back hsp h), bind_ok] at h1
      obtain ⟨_, y, h1, h2⟩ := h1
      obtain ⟨n', h2⟩ := void_ok.mp h2
      obtain ⟨b, rfl, _⟩ := slashdash_inv h1
      have hst : ¬ Stuck total ('/' :: '-' :: (b ++ y)) := fun hs => hs.2 n' _ ((bind_eq h1).trans h2)
      have hB := hk.resolve_right hst
      cases trail with
      | nil => rcases hr with rfl | ⟨_, rfl⟩ <;> cases e
      | cons c trail =>
        cases trail with
        | nil => rcases hr with rfl | ⟨_, rfl⟩ <;> cases e
        | cons c2 trail =>
          obtain ⟨e1, e2⟩ := List.cons.inj e
          obtain ⟨e2, e3⟩ := List.cons.inj e2
          subst e1 e2
          have e3 : b ++ y = trail ++ r := e3
          rw [e3] at hB ⊢
          exact ⟨B ++ '/' :: '-' :: trail, by simp, .lastSlash hB hL hn⟩
  | stop h hl hp =>
    intro n s0 hs hn
    exact hterm hs rfl h hn
  | @cons s q s' s2 n2 u ns h hl hp ht ih =>
    rintro n s0 hs ⟨B, rfl, hst, hB, hsp, hk, hT⟩
    obtain ⟨m, rfl, hm⟩ := nodeTerminator_inv h
    obtain ⟨l, q', n', h1, h2, rfl⟩ := nodeF_inv hp
    have hql : q.length ≤ N := by simp at hs; omega
    obtain ⟨rfl, hL⟩ := leadingItems_exact hN hql h1 (Or.inr ⟨_, _, h2⟩)
    have hq' : nodeSpace q' = .back := (lineSpace_back_iff.mp (leadingItems_inv h1).2.2).1
    have hn' := hN _ _ _ (by simp at hql; omega) hq' h2
    have hs' : s'.length ≤ N := by
      obtain ⟨B', rfl, _⟩ := hn'
      simp at hql; omega
    obtain ⟨T, rfl, hT2⟩ := ih ho (fun hs e => hterm hs e) hs' (hn'.lead l)
    refine ⟨B ++ (m ++ (l ++ T)), by simp, .cons hB hm hL ?_ hT2 (hn'.leadOf l)⟩
    rcases hT with ⟨ht, ht' | ht'⟩ | ⟨_, x, h3, h4⟩
    · rw [h] at ht'; cases ht'
    · refine Or.inr ⟨ht, ht'⟩
    · rw [h] at h3
      cases h3
      exact Or.inl (List.append_cancel_right h4).symm

/-- The nodes of a document or block. -/
theorem nodes_exact {total N : Nat} (hN : BaseOk total N) {s r : Str} {d : Document} (hs : s.length ≤ N)
    (h : nodesF total (baseNode total) s = .ok d r) (hr : DocEnd r) : ∃ D, s = D ++ r ∧ Tree (.nodes d) r D := by
  obtain ⟨lead, s1, ns, s2, o, s3, trail, h1, h2, h3, h4, rfl⟩ := nodesF_inv h
  have hagain := leadingItems_again h1
  rcases sep0_ok.mp h2 with ⟨h5, rfl, rfl⟩ | ⟨n, q, as, h5, h6, rfl⟩
  · have hd : DocEnd s2 := nodeF_back (baseNode_back total) hagain h5
    obtain ⟨rfl, hL⟩ := leadingItems_exact hN hs h1 (Or.inl hd)
    have ht : nodeTerminator s2 = .back := by
      rcases hd with rfl | ⟨q, rfl⟩
      · rfl
      · exact nodeTerminator_back_brace q
    rw [opt_none ht] at h3
    cases h3
    rw [hagain] at h4
    cases h4
    exact ⟨lead, rfl, .empty hL rfl rfl⟩
  · obtain ⟨l, q', n', h7, h8, rfl⟩ := nodeF_inv h5
    rw [hagain] at h7
    cases h7
    have hsfx : Sfx (nodeF (baseNode total)) := by
      have := (Strict.baseNode total).sfx
      unfold nodeF leadingItems
      psolve
    obtain ⟨rfl, hL⟩ := leadingItems_exact hN hs h1 (Or.inr ⟨_, _, h8⟩)
    have hq' : nodeSpace s1 = .back := (lineSpace_back_iff.mp (leadingItems_inv h1).2.2).1
    have hn' := hN _ _ _ (by simp at hs; omega) hq' h8
    have hql : q.length ≤ N := by
      obtain ⟨B', rfl, _⟩ := hn'
      simp at hs; omega
    have hn'' := (hn'.lead []).lead lead
    obtain ⟨T, rfl, hT⟩ := items_exact hN (sepMore_inv hsfx h6) h3 h4 hr hql hn''
    refine ⟨lead ++ T, by simp, ?_⟩
    have hlo := (hn'.lead []).leadOf lead
    obtain ⟨B, _, _, hB, _⟩ := hn'
    obtain ⟨f, hf⟩ := hB.format
    cases n'
    simp only [Node.format] at hf
    subst hf
    exact .items hL hT hlo rfl

theorem nodesOk_zero (total : Nat) : NodesOk total 0 := by
  intro x y d hx h
  obtain ⟨t, rfl⟩ := Sfx.nodesF total (Strict.baseNode total) _ _ _ h
  simp at hx

theorem baseOk (total N : Nat) : BaseOk total N := by
  induction N with
  | zero =>
    intro s r n hs
    exact baseNode_exact (fun x y d hx => nodesOk_zero total x y d (by omega))
  | succ N ih =>
    intro s r n hs
    refine baseNode_exact fun x y d hx h => ?_
    exact nodes_exact ih (by omega) h (Or.inr ⟨_, rfl⟩)

/-- Every document that the parser accepts is in the grammar. -/
theorem parse_exact {s : Str} {d : Document} (h : Document.parse s = .ok d) :
    ∃ D d', Tree (.nodes d') [] D ∧ ((s = D ∧ d = d') ∨ (s = Char.ofNat 0xFEFF :: D ∧ d = d'.prependLeading [Char.ofNat 0xFEFF])) := by
  obtain ⟨_, ⟨s1, d', rfl, h1, rfl⟩ | ⟨_, h1⟩⟩ := documentP_inv (tryParse_ok.mp h)
  · obtain ⟨D, e, hD⟩ := nodes_exact (baseOk _ _) (Nat.le_refl _) h1 (Or.inl rfl)
    rw [List.append_nil] at e
    subst e
    exact ⟨s1, d', hD, Or.inr ⟨rfl, rfl⟩⟩
  · obtain ⟨D, e, hD⟩ := nodes_exact (baseOk _ _) (Nat.le_refl _) h1 (Or.inl rfl)
    rw [List.append_nil] at e
    subst e
    exact ⟨s, d, hD, Or.inl ⟨rfl, rfl⟩⟩

end

end Kdl
