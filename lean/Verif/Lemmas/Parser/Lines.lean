import Verif.Lemmas.Parser.Space
/-
Line space: what may stand between nodes and after a slashdash.
-/

namespace Kdl
open Spec

/-- `p`, repeated, takes everything of `s` in front of `r`. -/
def Drain {α : Type} (p : P α) (s r : Str) : Prop := ∃ l, rep0 p s = .ok l r

section
variable {α : Type} {p : P α}

theorem Drain.stop {r : Str} (h : p r = .back) : Drain p r r := ⟨[], rep0_nil h⟩

theorem Drain.step {s q r : Str} {a : α} (h : p s = .ok a q) (hl : q.length < s.length) (hd : Drain p q r) : Drain p s r := by
  obtain ⟨l, hl'⟩ := hd
  exact ⟨_, rep0_cons h hl hl'⟩

theorem Drain.cases {s r : Str} (h : Drain p s r) :
    (p s = .back ∧ s = r) ∨ ∃ a q, p s = .ok a q ∧ q.length < s.length ∧ Drain p q r := by
  obtain ⟨l, h⟩ := h
  cases rep_of_rep0 h with
  | nil h' => exact Or.inl ⟨h', rfl⟩
  | cons h1 h2 h3 => exact Or.inr ⟨_, _, h1, h2, _, rep0_of_rep h3⟩

theorem Drain.last {s r : Str} (h : Drain p s r) : p r = .back := by
  obtain ⟨l, h⟩ := h
  exact rep0_stop h

end

/-- White space in front of node space. -/
theorem nodeSpace_ws_cons {s t q : Str} {u v : Unit} (hx : ws s = .ok u t) (hl : t.length < s.length)
    (h : nodeSpace t = .ok v q) : nodeSpace s = .ok () q := by
  have hw : ∀ {q : Str} {u : Unit}, wss t = .ok u q → wss s = .ok () q := by
    intro q u h
    obtain ⟨l, h⟩ := void_ok.mp h
    exact void_eq (rep0_cons hx hl h)
  unfold nodeSpace at h ⊢
  rcases alt_ok.mp h with h | ⟨hb, h⟩
  · rw [bind_ok] at h
    obtain ⟨_, s1, h1, h2⟩ := h
    apply alt_left
    rw [bind_eq (hw h1)]
    exact h2
  · obtain ⟨w, rfl, hw', hne, hq⟩ := wsp_inv h
    have h1 := wss_eq hw' hq
    rw [bind_eq h1] at hb
    rw [alt_right]
    · obtain ⟨l, h1⟩ := void_ok.mp h1
      exact void_eq (rep1_eq hx h1)
    · rw [bind_eq (hw h1)]
      exact hb

theorem nodeSpace_ws_one {s t : Str} {u : Unit} (hx : ws s = .ok u t) (hl : t.length < s.length)
    (h : nodeSpace t = .back) : nodeSpace s = .ok () t := by
  obtain ⟨h1, h2⟩ := nodeSpace_back_iff.mp h
  have h0 : wss s = .ok () t := void_eq (rep0_cons hx hl (rep0_nil h1))
  unfold nodeSpace
  rw [alt_right]
  · exact void_eq (rep1_eq hx (rep0_nil h1))
  · rw [bind_eq h0]
    exact bind_back h2

section
variable {q : P Unit}

theorem lineDrain_cases {s r : Str} (h : Drain (lineSpace <+> q) s r) :
    (nodeSpace s = .back) ∨ ∃ x, nodeSpace s = .ok () x ∧ x.length < s.length ∧ Drain (lineSpace <+> q) x r := by
  cases hn : nodeSpace s with
  | back => exact Or.inl rfl
  | ok u x =>
    have h1 : (lineSpace <+> q) s = .ok u x := alt_left (alt_left hn)
    rcases h.cases with ⟨h2, _⟩ | ⟨a, y, h2, h3, h4⟩
    · rw [h1] at h2; cases h2
    · rw [h1] at h2; cases h2
      exact Or.inr ⟨x, rfl, h3, h4⟩
  | cut =>
    have h1 : (lineSpace <+> q) s = .cut := alt_cut (alt_cut hn)
    rcases h.cases with ⟨h2, _⟩ | ⟨a, y, h2, _⟩ <;> rw [h1] at h2 <;> cases h2
  | crash =>
    have h1 : (lineSpace <+> q) s = .crash := by
      have : lineSpace s = .crash := by unfold lineSpace P.alt; rw [hn]
      unfold P.alt; rw [this]
    rcases h.cases with ⟨h2, _⟩ | ⟨a, y, h2, _⟩ <;> rw [h1] at h2 <;> cases h2

theorem Drain.node {s x r : Str} (h : nodeSpace s = .ok () x) (hl : x.length < s.length)
    (hd : Drain (lineSpace <+> q) x r) : Drain (lineSpace <+> q) s r := Drain.step (alt_left (alt_left h)) hl hd

theorem Drain.ws {s t r : Str} {u : Unit} (hx : ws s = .ok u t) (hl : t.length < s.length)
    (hd : Drain (lineSpace <+> q) t r) : Drain (lineSpace <+> q) s r := by
  rcases lineDrain_cases hd with h | ⟨x, h1, h2, h3⟩
  · exact Drain.node (nodeSpace_ws_one hx hl h) hl hd
  · exact Drain.node (nodeSpace_ws_cons hx hl h1) (by omega) h3

/-- White space at the front can be left out. -/
theorem Drain.unws {c t r : Str} (hc : WSeq c) (ht : Kdl.ws t = .back) (hd : Drain (lineSpace <+> q) (c ++ t) r) :
    Drain (lineSpace <+> q) t r := by
  by_cases hne : c = []
  · subst hne; exact hd
  · rcases lineDrain_cases hd with h | ⟨x, h1, h2, h3⟩
    · have := (nodeSpace_back_iff.mp h).1
      cases hc with
      | nil => exact absurd rfl hne
      | space h1 _ => exact absurd h1 ((ws_back_inv this).1 _ _ rfl)
      | comment _ _ => exact absurd rfl ((ws_back_inv this).2 _)
    · unfold nodeSpace at h1
      rcases alt_ok.mp h1 with h1 | ⟨hb, h1⟩
      · rw [bind_eq (wss_eq hc ht)] at h1
        have hn : Kdl.nodeSpace t = .ok () x := by
          unfold Kdl.nodeSpace
          apply alt_left
          have h0 : wss t = .ok () t := void_eq (rep0_nil ht)
          rw [bind_eq h0]
          exact h1
        refine Drain.node hn ?_ h3
        rw [bind_ok] at h1
        obtain ⟨_, s2, h4, h5⟩ := h1
        obtain ⟨b, m, a, rfl, _⟩ := escline_inv h4
        obtain ⟨w, e, _⟩ := wss_inv h5
        subst e
        simp only [List.length_append, List.length_cons]
        omega
      · obtain ⟨w, e, hw, _, hx⟩ := wsp_inv h1
        have e1 := wss_eq hc ht
        have e2 := wss_eq hw hx
        rw [e, e2] at e1
        cases e1
        exact h3

theorem Drain.cont {b m t r : Str} (hb : WSeq b) (hm : LineEnd m t) (hd : Drain (lineSpace <+> q) t r) :
    Drain (lineSpace <+> q) ('\\' :: (b ++ (m ++ t))) r := by
  have hw : ∃ x, wss t = .ok () x := by
    cases hw : wss t with
    | ok u x => exact ⟨x, rfl⟩
    | back => exact absurd hw (wss_noBack t)
    | cut =>
      have : Kdl.nodeSpace t = .cut := alt_cut (bind_cut hw)
      rcases lineDrain_cases hd with h | ⟨x, h, _⟩ <;> rw [this] at h <;> cases h
    | crash =>
      have : Kdl.nodeSpace t = .crash := by
        unfold Kdl.nodeSpace P.alt
        rw [bind_crash hw]
      rcases lineDrain_cases hd with h | ⟨x, h, _⟩ <;> rw [this] at h <;> cases h
  obtain ⟨x, hx⟩ := hw
  obtain ⟨c, rfl, hc, hx⟩ := wss_inv hx
  have := nodeSpace_cont (a := []) .nil hb hm hc hx
  refine Drain.node this ?_ (hd.unws hc hx)
  simp only [List.nil_append, List.length_append, List.length_cons]
  omega

theorem Drain.newline {m t r : Str} (hm : NewlineSeq m t) (hd : Drain (lineSpace <+> q) t r) :
    Drain (lineSpace <+> q) (m ++ t) r := by
  obtain ⟨c, x, rfl, hc⟩ := hm.head
  have f := newline_facts hc
  refine Drain.step (alt_left (α := Unit) (a := ()) (r := t) ?_) (by simp; omega) hd
  unfold lineSpace
  rw [alt_right]
  · exact alt_left (newline_seq hm)
  · refine nodeSpace_back_of ?_ ?_ ?_
    · rintro _ _ ⟨⟩
      cases hs : isUnicodeSpace c
      · rfl
      · exact absurd (isUnicodeSpace_iff.mp hs) f.2.2.2.2.2.2.2.2.2.2.2.2
    · intro q e; exact absurd (List.cons.inj e).1 f.1
    · intro q e; exact absurd (List.cons.inj e).1 f.2.1

theorem slash_facts {c : Char} (hc : c ≠ '*') (x : Str) :
    nodeSpace ('/' :: c :: x) = .back ∧ newline ('/' :: c :: x) = .back := by
  refine ⟨nodeSpace_back_of ?_ ?_ ?_, newline_back ?_⟩
  · rintro _ _ ⟨⟩; rfl
  · rintro _ e; exact absurd (List.cons.inj (List.cons.inj e).2).1 hc
  · rintro _ ⟨⟩
  · rintro _ _ ⟨⟩; decide

theorem lineComment_len {m t : Str} (hm : LineComment m t) : ∃ x, m = '/' :: '/' :: x := by
  obtain ⟨b, nl, rfl, _⟩ := hm
  exact ⟨_, rfl⟩

theorem Drain.line {m t r : Str} (hm : LineComment m t) (hd : Drain (lineSpace <+> q) t r) :
    Drain (lineSpace <+> q) (m ++ t) r := by
  have hs : singleLineComment (m ++ t) = .ok () t := singleLineComment_iff.mpr ⟨m, rfl, hm⟩
  obtain ⟨x, rfl⟩ := lineComment_len hm
  have f := slash_facts (c := '/') (by decide) (x ++ t)
  refine Drain.step (alt_left (α := Unit) (a := ()) (r := t) ?_) (by simp; omega) hd
  unfold lineSpace
  have e : '/' :: '/' :: x ++ t = '/' :: '/' :: (x ++ t) := rfl
  rw [e] at hs ⊢
  rw [alt_right f.1, alt_right f.2]
  exact hs

/-- Line space is taken completely. -/
theorem Spec.LSpace.drain {R w r : Str} (h : LSpace R w) (hd : Drain (Kdl.lineSpace <+> q) R r) :
    Drain (Kdl.lineSpace <+> q) (w ++ R) r := by
  induction h with
  | nil => exact hd
  | space h1 _ ih => exact Drain.ws (ws_iff (u := ()).mpr (Or.inl ⟨_, h1, rfl⟩)) (by simp) ih
  | @comment a t h1 _ ih =>
    refine Drain.ws (t := t ++ R) (ws_iff (u := ()).mpr (Or.inr ⟨a, by simp, h1⟩)) ?_ ih
    simp only [List.length_append, List.length_cons]
    omega
  | cont hb hm _ ih =>
    have := Drain.cont hb hm ih
    simpa using this
  | newline hm _ ih =>
    rw [List.append_assoc]
    exact Drain.newline hm ih
  | line hm _ ih =>
    rw [List.append_assoc]
    exact Drain.line hm ih

end

theorem nodeLine_eq : (nodeSpace <+> lineSpace) = (lineSpace <+> failP) := by
  funext s
  unfold lineSpace P.alt
  cases nodeSpace s with
  | back => cases newline s with
    | back => cases singleLineComment s <;> rfl
    | _ => rfl
  | _ => rfl

theorem lineSpace_back_iff {s : Str} : lineSpace s = .back ↔
    nodeSpace s = .back ∧ newline s = .back ∧ singleLineComment s = .back := by
  unfold lineSpace
  constructor
  · intro h
    have h1 : nodeSpace s = .back := by
      unfold P.alt at h
      cases hn : nodeSpace s <;> rw [hn] at h <;> first | rfl | cases h
    rw [alt_right h1] at h
    have h2 : newline s = .back := by
      unfold P.alt at h
      cases hn : newline s <;> rw [hn] at h <;> first | rfl | cases h
    rw [alt_right h2] at h
    exact ⟨h1, h2, h⟩
  · rintro ⟨h1, h2, h3⟩
    rw [alt_right h1, alt_right h2]
    exact h3

/-- A slashdash and the line space after it. -/
theorem slashdash_eq {b R : Str} (hb : LSpace R b) (hR : lineSpace R = .back) :
    slashdash ('/' :: '-' :: (b ++ R)) = .ok () R := by
  unfold slashdash
  have e : lit ['/', '-'] ('/' :: '-' :: (b ++ R)) = .ok () (b ++ R) := lit_append ['/', '-'] _
  rw [bind_eq e, nodeLine_eq]
  have hd : Drain (lineSpace <+> failP) R R := Drain.stop (by rw [alt_right hR]; rfl)
  obtain ⟨l, hl⟩ := hb.drain hd
  exact void_eq hl

/-! ### Space depends only on the next character -/

/-- If `r'` starts with a line feed, so does `r`. -/
def NlImp (r' r : Str) : Prop := ∀ q, r' = '\n' :: q → ∃ q', r = '\n' :: q'

theorem Spec.NewlineSeq.swapH {m t r r' : Str} (h : NewlineSeq m (t ++ r)) (h' : NlImp r' r) : NewlineSeq m (t ++ r') := by
  rcases h with h | ⟨c, h1, h2, h3⟩
  · exact Or.inl h
  · refine Or.inr ⟨c, h1, h2, fun hc q e => ?_⟩
    cases t with
    | nil =>
      obtain ⟨q', e'⟩ := h' q e
      exact h3 hc q' e'
    | cons d t =>
      have := h3 hc (t ++ r)
      rw [List.cons_append, (List.cons.inj e).1] at this
      exact this rfl

theorem Spec.LineComment.swapH {m t r r' : Str} (h : LineComment m (t ++ r)) (hr : r ≠ []) (h' : NlImp r' r) :
    LineComment m (t ++ r') := by
  obtain ⟨b, nl, h1, h2, h3⟩ := h
  refine ⟨b, nl, h1, h2, ?_⟩
  rcases h3 with h3 | ⟨_, h4⟩
  · exact Or.inl (h3.swapH h')
  · exact absurd (List.append_eq_nil_iff.mp h4).2 hr

theorem Spec.LineEnd.swapH {m t r r' : Str} (h : LineEnd m (t ++ r)) (hr : r ≠ []) (h' : NlImp r' r) :
    LineEnd m (t ++ r') := by
  rcases h with h | h | ⟨_, h⟩
  · exact Or.inl (h.swapH h')
  · exact Or.inr (Or.inl (h.swapH hr h'))
  · exact absurd (List.append_eq_nil_iff.mp h).2 hr

theorem Spec.NSpace.swapH {r r' w : Str} (h : NSpace r w) (hr : r ≠ []) (h' : NlImp r' r) : NSpace r' w := by
  induction h with
  | nil => exact .nil
  | space h1 _ ih => exact .space h1 ih
  | comment h1 _ ih => exact .comment h1 ih
  | cont hb hm _ ih => exact .cont hb (hm.swapH hr h') ih

theorem Spec.LSpace.swapH {r r' w : Str} (h : LSpace r w) (hr : r ≠ []) (h' : NlImp r' r) : LSpace r' w := by
  induction h with
  | nil => exact .nil
  | space h1 _ ih => exact .space h1 ih
  | comment h1 _ ih => exact .comment h1 ih
  | cont hb hm _ ih => exact .cont hb (hm.swapH hr h') ih
  | newline hm _ ih => exact .newline (hm.swapH h') ih
  | line hm _ ih => exact .line (hm.swapH hr h') ih

theorem Spec.NewlineSeq.swap {m t r r' : Str} (h : NewlineSeq m (t ++ r)) (h' : ∀ q, r' ≠ '\n' :: q) : NewlineSeq m (t ++ r') :=
  h.swapH (fun q e => absurd e (h' q))

theorem Spec.LineComment.swap {m t r r' : Str} (h : LineComment m (t ++ r)) (hr : r ≠ []) (h' : ∀ q, r' ≠ '\n' :: q) :
    LineComment m (t ++ r') :=
  h.swapH hr (fun q e => absurd e (h' q))

theorem Spec.LineEnd.swap {m t r r' : Str} (h : LineEnd m (t ++ r)) (hr : r ≠ []) (h' : ∀ q, r' ≠ '\n' :: q) :
    LineEnd m (t ++ r') :=
  h.swapH hr (fun q e => absurd e (h' q))

theorem Spec.NSpace.swap {r r' w : Str} (h : NSpace r w) (hr : r ≠ []) (h' : ∀ q, r' ≠ '\n' :: q) : NSpace r' w :=
  h.swapH hr (fun q e => absurd e (h' q))

theorem Spec.LSpace.swap {r r' w : Str} (h : LSpace r w) (hr : r ≠ []) (h' : ∀ q, r' ≠ '\n' :: q) : LSpace r' w :=
  h.swapH hr (fun q e => absurd e (h' q))

theorem Spec.NSpace.lspace {r w : Str} (h : NSpace r w) : LSpace r w := by
  induction h with
  | nil => exact .nil
  | space h1 _ ih => exact .space h1 ih
  | comment h1 _ ih => exact .comment h1 ih
  | cont hb hm _ ih => exact .cont hb hm ih

theorem Solid.notNl {r : Str} (h : Solid r) (q : Str) : r ≠ '\n' :: q := by
  rintro rfl
  exact (h _ _ rfl).1 (Or.inr (by decide))

theorem Spec.NSpace.space0 {r w : Str} (h : NSpace r w) (hr : nodeSpace r = .back) : Space0 w r :=
  nodeSpace0_iff.mpr ⟨w, rfl, h, hr⟩

theorem Spec.NSpace.sp {r w : Str} (h : NSpace r w) (hr : r ≠ []) : Sp w :=
  fun _ hr' => (h.swap hr hr'.notNl).space0 hr'.nodeSpace

/-! ### Line space, exactly -/

theorem lineSpace_inv {s x : Str} {u : Unit} (h : lineSpace s = .ok u x) :
    ∃ w, s = w ++ x ∧ w ≠ [] ∧ ∀ r t, x = t ++ r → LSpace r t → LSpace r (w ++ t) := by
  unfold lineSpace at h
  rcases alt_ok.mp h with h | ⟨_, h⟩
  · unfold nodeSpace at h
    have hws : ∀ {r a t : Str}, WSeq a → LSpace r t → LSpace r (a ++ t) := by
      intro r a t ha ht
      induction ha with
      | nil => exact ht
      | space h1 _ ih => exact .space h1 ih
      | comment h1 _ ih =>
        have := LSpace.comment h1 ih
        simpa using this
    rcases alt_ok.mp h with h | ⟨_, h⟩
    · rw [bind_ok] at h
      obtain ⟨_, s1, h1, h⟩ := h
      rw [bind_ok] at h
      obtain ⟨_, s2, h2, h3⟩ := h
      obtain ⟨d, rfl, hd, _⟩ := wss_inv h3
      obtain ⟨b, m, c, rfl, hb, hm, hc, _⟩ := escline_inv h2
      obtain ⟨a, rfl, ha, _⟩ := wss_inv h1
      refine ⟨a ++ '\\' :: (b ++ (m ++ (c ++ d))), by simp, by simp, ?_⟩
      rintro r t rfl ht
      have h4 := hws hc (hws hd ht)
      have := hws ha (LSpace.cont (r := r) hb (m := m) (by simpa using hm) h4)
      simpa using this
    · obtain ⟨w, rfl, hw, hne, _⟩ := wsp_inv h
      exact ⟨w, rfl, hne, fun r t _ ht => hws hw ht⟩
  · rcases alt_ok.mp h with h | ⟨_, h⟩
    · obtain ⟨nl, rfl, h'⟩ := newline_seq_inv h
      refine ⟨nl, rfl, ?_, ?_⟩
      · obtain ⟨c, q, rfl, _⟩ := h'.head
        simp
      · rintro r t rfl ht
        exact .newline h' ht
    · obtain ⟨m, rfl, h'⟩ := singleLineComment_iff.mp h
      refine ⟨m, rfl, ?_, ?_⟩
      · obtain ⟨c, rfl⟩ := lineComment_len h'
        simp
      · rintro r t rfl ht
        exact .line h' ht

theorem lineRep_inv {s r : Str} {l : List Unit} (h : Rep lineSpace s l r) : ∃ w, s = w ++ r ∧ LSpace r w := by
  induction h with
  | nil h => exact ⟨[], rfl, .nil⟩
  | cons hx _ _ ih =>
    obtain ⟨w, rfl, hw⟩ := ih
    obtain ⟨v, rfl, _, hv⟩ := lineSpace_inv hx
    exact ⟨v ++ w, by simp, hv _ _ rfl hw⟩

theorem slashdash_inv {s r : Str} {u : Unit} (h : slashdash s = .ok u r) :
    ∃ b, s = '/' :: '-' :: (b ++ r) ∧ LSpace r b ∧ lineSpace r = .back := by
  unfold slashdash at h
  rw [bind_ok] at h
  obtain ⟨_, q, h1, h2⟩ := h
  have h1 := lit_ok.mp h1
  obtain ⟨l, h2⟩ := void_ok.mp h2
  have e : (nodeSpace <+> lineSpace) = lineSpace := by
    funext s
    unfold lineSpace P.alt
    cases nodeSpace s <;> rfl
  rw [e] at h2
  obtain ⟨b, rfl, hb⟩ := lineRep_inv (rep_of_rep0 h2)
  exact ⟨b, h1, hb, rep0_stop h2⟩

end Kdl
