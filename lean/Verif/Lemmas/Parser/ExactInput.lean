import Verif.Lemmas.Parser.ExactDoc
/-
Single nodes and single entries: the parser accepts exactly the texts of the grammar.
-/

namespace Kdl
open Spec

section
variable [FloatIO]

/-- Line space up to the end of the text, as seen by the parser of an entry. -/
theorem lineDrain_after {q : P Unit} : ∀ {n : Nat} {v : Str}, v.length ≤ n → Drain (lineSpace <+> q) v [] →
    (∀ s, nodeSpace s = .back → newline s = .back → singleLineComment s = .back → ∀ u x, q s ≠ .ok u x) →
    Ends v ∧ ∃ x, nodeSpace0 v = .ok () x ∧ ∀ y, x ≠ '=' :: y := by
  intro n
  induction n with
  | zero =>
    intro v hv hd _
    have : v = [] := List.length_eq_zero_iff.mp (by omega)
    subst this
    exact ⟨Wall.ends (Or.inl rfl), [], rfl, by simp⟩
  | succ n ih =>
    intro v hv hd hq
    rcases hd.cases with ⟨_, rfl⟩ | ⟨a, x, h1, h2, h3⟩
    · exact ⟨Wall.ends (Or.inl rfl), [], rfl, by simp⟩
    · cases hn : nodeSpace v with
      | ok u x' =>
        have e : x = x' := by
          have : (lineSpace <+> q) v = .ok u x' := alt_left (alt_left hn)
          rw [this] at h1
          cases h1; rfl
        subst e
        obtain ⟨_, y, h4, h5⟩ := ih (by omega) h3 hq
        obtain ⟨l, h4⟩ := void_ok.mp h4
        exact ⟨ends_of_space hn, y, void_eq (rep0_cons hn h2 h4), h5⟩
      | back =>
        have hstop : NodeStop v := by
          rcases alt_ok.mp h1 with h | ⟨h, h'⟩
          · exact lineSpace_stop hn h
          · have := lineSpace_back_iff.mp h
            exact absurd h' (hq v hn this.2.1 this.2.2 _ _)
        have hw := (nodeStop_end hstop).wall
        exact ⟨hw.ends, v, void_eq (rep0_nil hn), hw.notEq⟩
      | cut =>
        have : (lineSpace <+> q) v = .cut := by simp [P.alt, lineSpace, hn]
        rw [this] at h1; cases h1
      | crash =>
        have : (lineSpace <+> q) v = .crash := by simp [P.alt, lineSpace, hn]
        rw [this] at h1; cases h1

theorem lineEnd_eq {v : Str} (hv : LSpace [] v) : AfterEntry v ∧ takeP (rep0 (lineSpace <+> nodeSpace)) v = .ok v [] := by
  have hd : Drain (lineSpace <+> nodeSpace) (v ++ []) [] := hv.drain (Drain.stop rfl)
  rw [List.append_nil] at hd
  refine ⟨lineDrain_after (Nat.le_refl _) hd fun s h _ _ u x => by rw [h]; simp, ?_⟩
  obtain ⟨l, h⟩ := hd
  have := takeP_eq (t := v) (r := []) (a := l) (p := rep0 (lineSpace <+> nodeSpace)) (by simpa using h)
  simpa using this

omit [FloatIO] in
theorem lineEnd_inv {v w r : Str} (h : takeP (rep0 (lineSpace <+> nodeSpace)) v = .ok w r) : v = w ++ r ∧ LSpace r w := by
  have hsfx : Sfx (rep0 (lineSpace <+> nodeSpace)) := (Strict.lineSpace.alt Strict.nodeSpace).sfx.rep0
  obtain ⟨e, us, h⟩ := takeP_inv hsfx h
  have hrep : ∀ {v r : Str} {us : List Unit}, Rep (lineSpace <+> nodeSpace) v us r → Rep lineSpace v us r := by
    intro v r us h
    induction h with
    | nil h => exact .nil (alt_back_inv h).1
    | cons h hl _ ih =>
      refine .cons ?_ hl ih
      rcases alt_ok.mp h with h | ⟨h, h'⟩
      · exact h
      · rw [(lineSpace_back_iff.mp h).1] at h'; cases h'
  obtain ⟨w', e', hw⟩ := lineRep_inv (hrep (rep_of_rep0 h))
  have : w = w' := List.append_cancel_right (e.symm.trans e')
  subst this
  exact ⟨e, hw⟩

/-- Single entries. -/
theorem entryParse_iff {s : Str} {d : SEntry Value} :
    (∃ e, Entry.parse s = .ok e ∧ semEntry id e = d) ↔ EntryInput d s := by
  constructor
  · rintro ⟨e, h, rfl⟩
    have h := tryParse_ok.mp h
    unfold paddedNodeEntry at h
    rw [bind_here, bind_ok] at h
    obtain ⟨l, s1, h1, h⟩ := h
    rw [bind_ok] at h
    obtain ⟨e', s2, h2, h⟩ := h
    rw [bind_ok] at h
    obtain ⟨v, s3, h3, h⟩ := h
    rw [bind_here] at h
    obtain ⟨rfl, rfl⟩ := pure_ok.mp h
    obtain ⟨e1, us, h1⟩ := takeP_inv Strict.lineSpace.sfx.rep0 h1
    have hs1 := (lineSpace_back_iff.mp (rep0_stop h1)).1
    obtain ⟨l', e1', hl⟩ := lineRep_inv (rep_of_rep0 h1)
    have := List.append_cancel_right (e1.symm.trans e1')
    subst this
    subst e1
    obtain ⟨e2, hv⟩ := lineEnd_inv h3
    rw [List.append_nil] at e2
    subst e2
    obtain ⟨w, t, rfl, hne, hlt, ht, _⟩ := entry_exact h2
    refine ⟨l, t, s2, by exact ht, hv, ?_⟩
    rcases hlt with hw | ⟨a, S, w', rfl, ha, hS, hw, hwne⟩
    · have : w = [] := nodeSpace0_none hs1 (hw.swapH hne ?_) ?_
      · subst this
        exact Or.inl ⟨rfl, LSpace.cut hl hne⟩
      · intro q e
        obtain ⟨c, y, rfl, _⟩ := EntryEnd.starts ht
        exact ⟨y, by rw [(List.cons.inj e).1]⟩
      · exact ((EntryEnd.starts ht).append _).solid.nodeSpace
    · obtain ⟨x, rfl⟩ := SdEnd.slash hS
      have ha' : NSpace ('/' :: '-' :: x ++ (w' ++ (t ++ s2))) a := ha.swapH (by simp) (by rintro q ⟨⟩)
      have : a = [] := nodeSpace0_none (by simpa using hs1) ha' (slash_facts (by decide) _).1
      subst this
      refine Or.inr ⟨_, w', by simp, LSpace.cut (r := w' ++ (t ++ s2)) (by simpa using hl) (by simp), hS, hw, hwne⟩
  · rintro ⟨l, t, v, ht, hv, h⟩
    obtain ⟨hav, hve⟩ := lineEnd_eq hv
    obtain ⟨hst, htok⟩ := EntTok.text ht
    have hs := hst.append v
    have hne : t ≠ [] := by
      obtain ⟨c, q, rfl, _⟩ := hst
      simp
    obtain ⟨e, h1, h2⟩ := htok (utf8Len s) v hav
    have hread : ∃ R, s = l ++ R ∧ LSpace R l ∧ lineSpace R = .back ∧
        ∃ e', nodeEntry (utf8Len s) R = .ok e' v ∧ semEntry id e' = d := by
      rcases h with ⟨e1, hl⟩ | ⟨S, w, e1, hl, hS, hw, hwne⟩
      · obtain ⟨e', h3, h4⟩ := entryLeading_nodeEntry (w := []) (hs.solid.entryLeading) h1
        exact ⟨_, e1, hl.swap hne hs.solid.notNl, hs.solid.lineSpace, e', h3, (h4 _).trans h2⟩
      · have hsl := hS.slash.append (w ++ (t ++ v))
        have e2 := entryLeading_slash (g := []) (WSp.nil _ hsl.nodeSpace) hS.run ((hw.sp hne) _ hs.solid) hwne hs.notEq (utf8Len s)
          (hs.sdEntry _)
        have e3 : S ++ (w ++ (t ++ v)) = (S ++ w) ++ (t ++ v) := by simp
        rw [List.nil_append, List.nil_append, e3] at e2
        obtain ⟨e', h3, h4⟩ := entryLeading_nodeEntry e2 h1
        rw [← e3] at h3
        exact ⟨_, e1, hl.swap hS.slash.ne hsl.notNl, hsl.lineSpace, e', h3, (h4 _).trans h2⟩
    obtain ⟨R, e1, hl, hR, e', h3, h4⟩ := hread
    have hd : Drain (lineSpace <+> failP) R R := Drain.stop (by rw [alt_right hR]; rfl)
    obtain ⟨us, h5⟩ := hl.drain hd
    have h5 : takeP (rep0 lineSpace) (l ++ R) = .ok l R := by
      have e : (lineSpace <+> failP) = lineSpace := by
        funext s
        unfold P.alt
        cases lineSpace s <;> rfl
      rw [e] at h5
      exact takeP_eq h5
    have hp : ∀ total, nodeEntry total R = .ok e' v → ∃ e'', paddedNodeEntry total (l ++ R) = .ok e'' [] ∧
        semEntry id e'' = semEntry id e' := by
      intro total h3
      unfold paddedNodeEntry
      rw [bind_here, bind_eq h5, bind_eq h3, bind_eq hve, bind_here]
      exact ⟨_, rfl, rfl⟩
    obtain ⟨e'', h6, h7⟩ := hp _ h3
    rw [← e1] at h6
    exact ⟨e'', tryParse_ok.mpr h6, h7.trans h4⟩

/-- Single nodes. -/
theorem nodeParse_iff {s : Str} {d : SNode Value} :
    (∃ n, Node.parse s = .ok n ∧ semNode id n = d) ↔ NodeInput d s := by
  constructor
  · rintro ⟨n, h, rfl⟩
    have h := tryParse_ok.mp h
    unfold paddedNode at h
    rw [bind_here, bind_ok] at h
    obtain ⟨n', s1, h1, h⟩ := h
    rw [bind_ok] at h
    obtain ⟨o, s2, h2, h⟩ := h
    rw [bind_ok] at h
    obtain ⟨v, s3, h3, h⟩ := h
    rw [bind_here] at h
    obtain ⟨rfl, rfl⟩ := pure_ok.mp h
    obtain ⟨l, q, n0, h4, h5, rfl⟩ := nodeF_inv h1
    obtain ⟨rfl, hL⟩ := leadingItems_exact (baseOk _ _) (Nat.le_refl _) h4 (Or.inr ⟨_, _, h5⟩)
    have hq : nodeSpace q = .back := (lineSpace_back_iff.mp (leadingItems_inv h4).2.2).1
    obtain ⟨B, rfl, _, hB, hs1, _⟩ := baseOk _ _ _ _ _ (Nat.le_refl _) hq h5
    obtain ⟨e2, hv⟩ := lineEnd_inv h3
    rw [List.append_nil] at e2
    subst e2
    refine ⟨false, l, B, s1, rfl, hL, ?_, ?_⟩
    · have e : ∀ (n : Node) f g sp, semNode id (((n.setFormat f).setFormat g).setSpan sp) = semNode id n := by
        intro n f g sp; cases n; rfl
      rw [e]
      exact hB.text
    · rcases opt_ok.mp h2 with ⟨u, _, h2⟩ | ⟨_, rfl, h2⟩
      · obtain ⟨m, rfl, hm⟩ := nodeTerminator_inv h2
        exact Or.inr ⟨m, s2, rfl, hm, hv⟩
      · left
        have hb := lineSpace_of_terminator_back hs1 h2
        have : takeP (rep0 (lineSpace <+> nodeSpace)) s2 = .ok [] s2 := takeP_nil (rep0_nil (by rw [alt_right hb, hs1]))
        rw [this] at h3
        cases h3
        rfl
  · rintro ⟨k, L, B, M, e1, hL, hB, hM⟩
    obtain ⟨hst, hr⟩ := hB.reads
    have hs := (hst.append M).solid
    have hN : NodeEnd M := by
      rcases hM with rfl | ⟨m, v, rfl, hm, _⟩
      · exact Or.inl rfl
      · exact Or.inr (Or.inr ⟨_, _, termText_eq hm⟩)
    obtain ⟨l, h1⟩ := (hL.reads hs).2 (utf8Len s)
    have h1 : leadingItems (baseNode (utf8Len s)) (L ++ (B ++ M)) = .ok L (B ++ M) := takeP_eq h1
    obtain ⟨n, h2, h3⟩ := hr (Or.inl hN) (utf8Len s)
    have hend : ∃ o v, opt nodeTerminator M = .ok o v ∧ takeP (rep0 (lineSpace <+> nodeSpace)) v = .ok v [] := by
      rcases hM with rfl | ⟨m, v, rfl, hm, hv⟩
      · exact ⟨none, [], rfl, rfl⟩
      · exact ⟨_, v, opt_some (termText_eq hm), (lineEnd_eq hv).2⟩
    obtain ⟨o, v, h4, h5⟩ := hend
    have hp : ∀ total, leadingItems (baseNode total) (L ++ (B ++ M)) = .ok L (B ++ M) → baseNode total (B ++ M) = .ok n M →
        ∃ n', paddedNode total (L ++ (B ++ M)) = .ok n' [] ∧ semNode id n' = semNode id n := by
      intro total h1 h2
      unfold paddedNode
      have h6 : nodeF (baseNode total) (L ++ (B ++ M)) = .ok (n.setFormat (n.format.map fun f => { f with leading := L })) M := by
        unfold nodeF
        rw [bind_eq h1, bind_eq h2]
        rfl
      rw [bind_here, bind_eq h6, bind_eq h4, bind_eq h5, bind_here]
      refine ⟨_, rfl, ?_⟩
      cases n; rfl
    obtain ⟨n', h6, h7⟩ := hp _ h1 h2
    rw [← e1] at h6
    exact ⟨n', tryParse_ok.mpr h6, h7.trans h3⟩

/-- Documents. -/
theorem documentParse_iff {s : Str} {ds : List (SNode Value)} :
    (∃ d, Document.parse s = .ok d ∧ semDoc id d = ds) ↔ DocumentInput ds s := by
  constructor
  · rintro ⟨d, h, rfl⟩
    obtain ⟨D, d', hD, ⟨rfl, rfl⟩ | ⟨rfl, rfl⟩⟩ := parse_exact h
    · exact ⟨s, Or.inl rfl, hD.text⟩
    · refine ⟨D, Or.inr rfl, ?_⟩
      have e : semDoc id (d'.prependLeading [Char.ofNat 0xFEFF]) = semDoc id d' := by cases d'; rfl
      rw [e]
      exact hD.text
  · rintro ⟨t, rfl | rfl, h⟩
    · exact h.parse
    · have hr : NodesAt ds [] t := h.reads (Or.inl rfl)
      obtain ⟨d, h1, h2⟩ := hr (utf8Len (Char.ofNat 0xFEFF :: t))
      rw [List.append_nil] at h1
      refine ⟨d.prependLeading [Char.ofNat 0xFEFF], tryParse_ok.mpr ?_, ?_⟩
      · generalize utf8Len (Char.ofNat 0xFEFF :: t) = total at h1 ⊢
        unfold documentP
        have h3 : opt (takeP bom) (Char.ofNat 0xFEFF :: t) = .ok (some [Char.ofNat 0xFEFF]) t :=
          opt_some (takeP_eq (t := [Char.ofNat 0xFEFF]) (p := bom) (lit_append [Char.ofNat 0xFEFF] t))
        have h5 : cutErr eof ([] : Str) = .ok () [] := rfl
        rw [bind_eq h3, bind_eq h1, bind_eq h5]
        rfl
      · rw [← h2]
        cases d; rfl

end

end Kdl
