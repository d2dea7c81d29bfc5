import Verif.Spec.Space
import Verif.Lemmas.Parser.Multi
import Verif.Lemmas.Parser.Tok
/-
White space and comments: the parsers consume what `Spec.NSpace` describes.
-/

namespace Kdl
open Spec

/-! ### Block comments -/

/-- Neither `*` nor `/`. -/
def Plain (c : Char) : Prop := c ≠ '*' ∧ c ≠ '/'

theorem Spec.CBody.run {a : Str} (h : CBody a) : ∃ u b, a = u ++ b ∧ (∀ c ∈ u, Plain c) ∧ CBody b ∧
    ∀ c q, b = c :: q → ¬ Plain c := by
  induction h with
  | nil => exact ⟨[], [], rfl, by simp, .nil, by simp⟩
  | char h1 h2 h ih =>
    obtain ⟨u, b, rfl, hu, hb, hn⟩ := ih
    exact ⟨_ :: u, b, rfl, by simpa using ⟨⟨h1, h2⟩, hu⟩, hb, hn⟩
  | star h1 h => exact ⟨[], _, rfl, by simp, .star h1 h, by rintro _ _ ⟨⟩; exact fun h => h.1 rfl⟩
  | slash h1 h2 h => exact ⟨[], _, rfl, by simp, .slash h1 h2 h, by rintro _ _ ⟨⟩; exact fun h => h.2 rfl⟩
  | nest ha h => exact ⟨[], _, rfl, by simp, .nest ha h, by rintro _ _ ⟨⟩; exact fun h => h.2 rfl⟩

theorem Spec.CBody.chars {u t : Str} (hu : ∀ c ∈ u, Plain c) (h : CBody t) : CBody (u ++ t) := by
  induction u with
  | nil => exact h
  | cons c u ih =>
    exact .char (hu c (by simp)).1 (hu c (by simp)).2 (ih fun c hc => hu c (by simp [hc]))

theorem rep1_plain {u r : Str} (hu : ∀ c ∈ u, Plain c) (hne : u ≠ []) (hr : ∀ c q, r = c :: q → ¬ Plain c) :
    void (rep1 (satisfy fun c => c != '*' && c != '/')) (u ++ r) = .ok () r := by
  have key : ∀ u : Str, (∀ c ∈ u, Plain c) → ∃ l, rep0 (satisfy fun c => c != '*' && c != '/') (u ++ r) = .ok l r := by
    intro u hu
    induction u with
    | nil =>
      refine ⟨[], rep0_nil ?_⟩
      cases r with
      | nil => rfl
      | cons c q =>
        refine satisfy_back.mpr ?_
        rintro _ _ ⟨⟩
        have := hr c q rfl
        unfold Plain at this
        simp only [bne, Bool.and_eq_false_iff, Bool.not_eq_false', beq_iff_eq]
        by_cases h1 : c = '*'
        · exact Or.inl h1
        · exact Or.inr (Classical.byContradiction fun h2 => this ⟨h1, h2⟩)
    | cons c u ih =>
      obtain ⟨l, hl⟩ := ih fun c hc => hu c (by simp [hc])
      have hc := hu c (by simp)
      exact ⟨c :: l, rep0_cons (satisfy_eq (by simp [hc.1, hc.2])) (by simp) hl⟩
  cases u with
  | nil => exact absurd rfl hne
  | cons c u =>
    obtain ⟨l, hl⟩ := key u fun c hc => hu c (by simp [hc])
    have hc := hu c (by simp)
    exact void_eq (rep1_eq (satisfy_eq (by simp [hc.1, hc.2])) hl)

theorem commentedBlock_eq : ∀ (n : Nat) {a r : Str}, a.length ≤ n → CBody a →
    commentedBlock (a ++ '*' :: '/' :: r) = .ok () r := by
  intro n
  induction n with
  | zero =>
    intro a r hn h
    have : a = [] := List.eq_nil_of_length_eq_zero (by omega)
    subst this
    rw [commentedBlock_unfold]
    exact alt_left rfl
  | succ n ih =>
    intro a r hn h
    rw [commentedBlock_unfold]
    cases h with
    | nil => exact alt_left rfl
    | @star t h1 h =>
      have e1 : lit ['*', '/'] ('*' :: t ++ '*' :: '/' :: r) = .back := by
        apply lit_back.mpr
        intro q e
        cases t with
        | nil => exact absurd (List.cons.inj (List.cons.inj e).2).1 (by decide)
        | cons c t => exact h1 t (by rw [(List.cons.inj (List.cons.inj e).2).1])
      rw [alt_right e1]
      have e2 : ((do lit ['/', '*']; cutErr commentedBlock) <+> lit ['*'] <+> lit ['/'] <+>
          void (rep1 (satisfy fun c => c != '*' && c != '/'))) ('*' :: t ++ '*' :: '/' :: r) = .ok () (t ++ '*' :: '/' :: r) := by
        rw [alt_right (bind_back (lit_back.mpr fun q e => absurd (List.cons.inj e).1 (by decide)))]
        exact alt_left (lit_one _ _)
      rw [bind_eq e2]
      exact ih (by simp at hn; omega) h
    | @slash t h1 h2 h =>
      rw [alt_right (lit_back.mpr fun q e => absurd (List.cons.inj e).1 (by decide))]
      have e1 : lit ['/', '*'] ('/' :: t ++ '*' :: '/' :: r) = .back := by
        apply lit_back.mpr
        intro q e
        cases t with
        | nil => exact h1 rfl
        | cons c t => exact h2 t (by rw [(List.cons.inj (List.cons.inj e).2).1])
      have e2 : ((do lit ['/', '*']; cutErr commentedBlock) <+> lit ['*'] <+> lit ['/'] <+>
          void (rep1 (satisfy fun c => c != '*' && c != '/'))) ('/' :: t ++ '*' :: '/' :: r) = .ok () (t ++ '*' :: '/' :: r) := by
        rw [alt_right (bind_back e1), alt_right (lit_back.mpr fun q e => absurd (List.cons.inj e).1 (by decide))]
        exact alt_left (lit_one _ _)
      rw [bind_eq e2]
      exact ih (by simp at hn; omega) h
    | @nest b t ha h =>
      simp only [List.length_cons, List.length_append] at hn
      rw [alt_right (lit_back.mpr fun q e => absurd (List.cons.inj e).1 (by decide))]
      have e2 : ((do lit ['/', '*']; cutErr commentedBlock) <+> lit ['*'] <+> lit ['/'] <+>
          void (rep1 (satisfy fun c => c != '*' && c != '/')))
          ('/' :: '*' :: (b ++ '*' :: '/' :: t) ++ '*' :: '/' :: r) = .ok () (t ++ '*' :: '/' :: r) := by
        apply alt_left
        have e3 : lit ['/', '*'] ('/' :: '*' :: (b ++ '*' :: '/' :: t) ++ '*' :: '/' :: r)
            = .ok () (b ++ '*' :: '/' :: (t ++ '*' :: '/' :: r)) := by
          have := lit_append ['/', '*'] (b ++ '*' :: '/' :: (t ++ '*' :: '/' :: r))
          simpa using this
        rw [bind_eq e3]
        exact cutErr_eq (ih (by omega) ha)
      rw [bind_eq e2]
      exact ih (by omega) h
    | @char c t h1 h2 h =>
      obtain ⟨u, b, e, hu, hb, hn'⟩ := Spec.CBody.run (.char h1 h2 h)
      rw [e] at hn ⊢
      have hne : u ≠ [] := by
        rintro rfl
        exact hn' c t e.symm ⟨h1, h2⟩
      obtain ⟨d, u', rfl⟩ := List.exists_cons_of_ne_nil hne
      have hd := hu d (by simp)
      rw [List.append_assoc]
      rw [alt_right (lit_back.mpr fun q e => hd.1 (List.cons.inj e).1)]
      have e2 : ((do lit ['/', '*']; cutErr commentedBlock) <+> lit ['*'] <+> lit ['/'] <+>
          void (rep1 (satisfy fun c => c != '*' && c != '/')))
          (d :: u' ++ (b ++ '*' :: '/' :: r)) = .ok () (b ++ '*' :: '/' :: r) := by
        rw [alt_right (bind_back (lit_back.mpr fun q e => hd.2 (List.cons.inj e).1)),
          alt_right (lit_back.mpr fun q e => hd.1 (List.cons.inj e).1),
          alt_right (lit_back.mpr fun q e => hd.2 (List.cons.inj e).1)]
        refine rep1_plain hu hne ?_
        intro c q e
        cases b with
        | nil => rw [← (List.cons.inj e).1]; exact fun h => h.1 rfl
        | cons x b => rw [← (List.cons.inj e).1]; exact hn' x b rfl
      rw [bind_eq e2]
      exact ih (by simp at hn; omega) hb

theorem commentedBlock_inv : ∀ (n : Nat) {s r : Str} {u : Unit}, s.length ≤ n → commentedBlock s = .ok u r →
    ∃ a, s = a ++ '*' :: '/' :: r ∧ CBody a := by
  intro n
  induction n with
  | zero =>
    intro s r u hn h
    have : s = [] := List.eq_nil_of_length_eq_zero (by omega)
    subst this
    cases h
  | succ n ih =>
    intro s r u hn h
    rw [commentedBlock_unfold] at h
    rcases alt_ok.mp h with h | ⟨hb, h⟩
    · obtain h := lit_ok.mp h
      exact ⟨[], by simpa using h, .nil⟩
    · have hend := lit_back.mp hb
      rw [bind_ok] at h
      obtain ⟨_, s1, h1, h2⟩ := h
      rcases alt_ok.mp h1 with h1 | ⟨hb1, h1⟩
      · rw [bind_ok] at h1
        obtain ⟨_, s2, h1, h3⟩ := h1
        have h1 := lit_ok.mp h1
        rw [cutErr_ok] at h3
        simp only [List.cons_append, List.nil_append] at h1
        subst h1
        simp only [List.length_cons] at hn
        obtain ⟨a, rfl, ha⟩ := ih (by omega) h3
        simp only [List.length_append, List.length_cons] at hn
        obtain ⟨t, rfl, ht⟩ := ih (by omega) h2
        exact ⟨_, by simp, .nest ha ht⟩
      · have hnest : ∀ q, s ≠ '/' :: '*' :: q := by
          rintro q rfl
          have e3 : lit ['/', '*'] ('/' :: '*' :: q) = .ok () q := rfl
          rw [bind_eq e3] at hb1
          cases hc : commentedBlock q with
          | ok a r => rw [cutErr_eq hc] at hb1; cases hb1
          | back => rw [cutErr_back hc] at hb1; cases hb1
          | cut => unfold cutErr at hb1; rw [hc] at hb1; cases hb1
          | crash => unfold cutErr at hb1; rw [hc] at hb1; cases hb1
        rcases alt_ok.mp h1 with h1 | ⟨_, h1⟩
        · have h1 := lit_ok.mp h1
          simp only [List.cons_append, List.nil_append] at h1
          subst h1
          obtain ⟨t, rfl, ht⟩ := ih (by simpa using hn) h2
          refine ⟨_, by simp, .star ?_ ht⟩
          rintro q rfl
          exact hend _ rfl
        · rcases alt_ok.mp h1 with h1 | ⟨_, h1⟩
          · have h1 := lit_ok.mp h1
            simp only [List.cons_append, List.nil_append] at h1
            subst h1
            obtain ⟨t, rfl, ht⟩ := ih (by simpa using hn) h2
            refine ⟨_, by simp, .slash ?_ ?_ ht⟩
            · rintro rfl
              exact hnest _ rfl
            · rintro q rfl
              exact hnest _ rfl
          · obtain ⟨l, h1⟩ := void_ok.mp h1
            have key : ∀ {l : List Char} {s s1 : Str}, Rep (satisfy fun c => c != '*' && c != '/') s l s1 →
                ∃ u, s = u ++ s1 ∧ ∀ c ∈ u, Plain c := by
              intro l s s1 h
              induction h with
              | nil => exact ⟨[], rfl, by simp⟩
              | cons hx _ _ ih =>
                obtain ⟨u, rfl, hu⟩ := ih
                obtain ⟨rfl, hc⟩ := satisfy_ok.mp hx
                simp only [bne_iff_ne, Bool.and_eq_true, ne_eq] at hc
                exact ⟨_ :: u, rfl, by simpa using ⟨hc, hu⟩⟩
            rw [rep1_ok] at h1
            obtain ⟨c, l', s2, h3, h4, rfl⟩ := h1
            obtain ⟨rfl, hc⟩ := satisfy_ok.mp h3
            simp only [bne_iff_ne, Bool.and_eq_true, ne_eq] at hc
            obtain ⟨u, rfl, hu⟩ := key (rep_of_rep0 h4)
            simp only [List.length_cons, List.length_append] at hn
            obtain ⟨t, rfl, ht⟩ := ih (by omega) h2
            exact ⟨c :: (u ++ t), by simp, .char hc.1 hc.2 (.chars hu ht)⟩

/-- Block comments, exactly. -/
theorem multiLineComment_iff {s r : Str} {u : Unit} :
    multiLineComment s = .ok u r ↔ ∃ a, s = '/' :: '*' :: (a ++ '*' :: '/' :: r) ∧ CBody a := by
  rw [multiLineComment_eq]
  constructor
  · intro h
    rw [bind_ok] at h
    obtain ⟨_, s1, h1, h2⟩ := h
    have h1 := lit_ok.mp h1
    simp only [List.cons_append, List.nil_append] at h1
    subst h1
    rw [cutErr_ok] at h2
    obtain ⟨a, rfl, ha⟩ := commentedBlock_inv _ (Nat.le_refl _) h2
    exact ⟨a, rfl, ha⟩
  · rintro ⟨a, rfl, ha⟩
    have e3 : lit ['/', '*'] ('/' :: '*' :: (a ++ '*' :: '/' :: r)) = .ok () (a ++ '*' :: '/' :: r) := rfl
    rw [bind_eq e3]
    exact cutErr_eq (commentedBlock_eq _ (Nat.le_refl _) ha)

/-- An unterminated block comment is a fatal error. -/
theorem multiLineComment_cut {q : Str} (h : ∀ a r, CBody a → q ≠ a ++ '*' :: '/' :: r) :
    multiLineComment ('/' :: '*' :: q) = .cut := by
  cases hm : multiLineComment ('/' :: '*' :: q) with
  | ok u r =>
    obtain ⟨a, e, ha⟩ := multiLineComment_iff.mp hm
    exact absurd (List.cons.inj (List.cons.inj e).2).2 (h a r ha)
  | cut => rfl
  | crash => exact absurd hm (OkTo.multiLineComment _ _ (Nat.lt_succ_self _))
  | back =>
    rw [multiLineComment_eq] at hm
    have e3 : lit ['/', '*'] ('/' :: '*' :: q) = .ok () q := rfl
    rw [bind_eq e3] at hm
    cases hc : commentedBlock q with
    | ok a r => rw [cutErr_eq hc] at hm; cases hm
    | back => rw [cutErr_back hc] at hm; cases hm
    | cut => unfold cutErr at hm; rw [hc] at hm; cases hm
    | crash => unfold cutErr at hm; rw [hc] at hm; cases hm

/-! ### White space -/

theorem ws_iff {s r : Str} {u : Unit} : ws s = .ok u r ↔ (∃ c, Space c ∧ s = c :: r) ∨
    ∃ a, s = '/' :: '*' :: (a ++ '*' :: '/' :: r) ∧ CBody a := by
  unfold ws
  constructor
  · intro h
    rcases alt_ok.mp h with h | ⟨_, h⟩
    · left
      obtain ⟨c, h⟩ := void_ok.mp h
      obtain ⟨rfl, hc⟩ := satisfy_ok.mp h
      exact ⟨c, isUnicodeSpace_iff.mp hc, rfl⟩
    · exact Or.inr (multiLineComment_iff.mp h)
  · rintro (⟨c, hc, rfl⟩ | h)
    · exact alt_left (unicodeSpace_eq hc)
    · obtain ⟨a, rfl, ha⟩ := h
      rw [alt_right]
      · exact multiLineComment_iff.mpr ⟨a, rfl, ha⟩
      · exact void_back (satisfy_back.mpr (by rintro _ _ ⟨⟩; decide))

/-- Does not start with white space or a block comment. -/
theorem ws_back {s : Str} (h1 : ∀ c q, s = c :: q → ¬ Space c) (h2 : ∀ q, s ≠ '/' :: '*' :: q) : ws s = .back := by
  unfold ws
  rw [alt_right, multiLineComment_eq]
  · exact bind_back (lit_back.mpr h2)
  · refine void_back (satisfy_back.mpr fun c q e => ?_)
    have := h1 c q e
    rw [← isUnicodeSpace_iff] at this
    simpa using this

theorem ws_back_inv {s : Str} (h : ws s = .back) : (∀ c q, s = c :: q → ¬ Space c) ∧ ∀ q, s ≠ '/' :: '*' :: q := by
  constructor
  · rintro c q rfl hc
    rw [ws_iff (u := ()) |>.mpr (Or.inl ⟨c, hc, rfl⟩)] at h
    cases h
  · rintro q rfl
    unfold ws at h
    have e0 : unicodeSpace ('/' :: '*' :: q) = .back :=
      void_back (satisfy_back.mpr (by intro c q e; rw [← (List.cons.inj e).1]; decide))
    rw [alt_right e0, multiLineComment_eq] at h
    have e3 : lit ['/', '*'] ('/' :: '*' :: q) = .ok () q := rfl
    rw [bind_eq e3] at h
    cases hc : commentedBlock q with
    | ok a r => rw [cutErr_eq hc] at h; cases h
    | back => rw [cutErr_back hc] at h; cases h
    | cut => unfold cutErr at h; rw [hc] at h; cases h
    | crash => unfold cutErr at h; rw [hc] at h; cases h

theorem ws_cases {s : Str} : ws s = .back ∨ (∃ q, ws s = .ok () q) ∨ ws s = .cut := by
  cases h : ws s with
  | ok u q => exact Or.inr (Or.inl ⟨q, rfl⟩)
  | back => exact Or.inl rfl
  | cut => exact Or.inr (Or.inr rfl)
  | crash => exact absurd h (OkTo.ws _ _ (Nat.lt_succ_self _))

theorem Spec.WSeq.append {a b : Str} (ha : WSeq a) (hb : WSeq b) : WSeq (a ++ b) := by
  induction ha with
  | nil => exact hb
  | space h1 _ ih => exact .space h1 ih
  | comment h1 _ ih =>
    have := WSeq.comment h1 ih
    simpa using this

theorem Spec.WSeq.spaces {a : Str} (h : ∀ c ∈ a, Space c) : WSeq a := by
  induction a with
  | nil => exact .nil
  | cons c a ih => exact .space (h c (by simp)) (ih fun c hc => h c (by simp [hc]))

theorem rep0_ws {w r : Str} (h : WSeq w) (hr : ws r = .back) : ∃ l, rep0 ws (w ++ r) = .ok l r := by
  induction h with
  | nil => exact ⟨[], rep0_nil hr⟩
  | @space c t h1 _ ih =>
    obtain ⟨l, hl⟩ := ih
    exact ⟨() :: l, rep0_cons (ws_iff.mpr (Or.inl ⟨c, h1, rfl⟩)) (by simp) hl⟩
  | @comment a t h1 _ ih =>
    obtain ⟨l, hl⟩ := ih
    refine ⟨() :: l, rep0_cons (r := t ++ r) (ws_iff.mpr (Or.inr ⟨a, by simp, h1⟩)) ?_ hl⟩
    simp only [List.length_append, List.length_cons]
    omega

theorem wss_eq {w r : Str} (h : WSeq w) (hr : ws r = .back) : wss (w ++ r) = .ok () r := by
  obtain ⟨l, hl⟩ := rep0_ws h hr
  exact void_eq hl

theorem wseq_of_rep {s r : Str} {l : List Unit} (h : Rep ws s l r) : ∃ w, s = w ++ r ∧ WSeq w ∧ ws r = .back := by
  induction h with
  | nil h => exact ⟨[], rfl, .nil, h⟩
  | cons hx _ _ ih =>
    obtain ⟨w, rfl, hw, hr⟩ := ih
    rcases ws_iff.mp hx with ⟨c, hc, rfl⟩ | ⟨a, rfl, ha⟩
    · exact ⟨c :: w, rfl, .space hc hw, hr⟩
    · exact ⟨_, by simp, .comment ha hw, hr⟩

theorem wss_inv {s r : Str} {u : Unit} (h : wss s = .ok u r) : ∃ w, s = w ++ r ∧ WSeq w ∧ ws r = .back := by
  obtain ⟨l, h⟩ := void_ok.mp h
  exact wseq_of_rep (rep_of_rep0 h)

theorem wsp_eq {w r : Str} (h : WSeq w) (hw : w ≠ []) (hr : ws r = .back) : wsp (w ++ r) = .ok () r := by
  unfold wsp
  cases h with
  | nil => exact absurd rfl hw
  | @space c t h1 h =>
    obtain ⟨l, hl⟩ := rep0_ws h hr
    exact void_eq (rep1_eq (a := ()) (ws_iff.mpr (Or.inl ⟨c, h1, rfl⟩)) hl)
  | @comment a t h1 h =>
    obtain ⟨l, hl⟩ := rep0_ws h hr
    exact void_eq (rep1_eq (a := ()) (ws_iff.mpr (Or.inr ⟨a, by simp, h1⟩)) hl)

theorem wsp_inv {s r : Str} {u : Unit} (h : wsp s = .ok u r) : ∃ w, s = w ++ r ∧ WSeq w ∧ w ≠ [] ∧ ws r = .back := by
  obtain ⟨l, h⟩ := void_ok.mp h
  obtain ⟨a, q, as, h1, h2, _⟩ := rep1_ok.mp h
  obtain ⟨w, rfl, hw, hr⟩ := wseq_of_rep (rep_of_rep0 h2)
  rcases ws_iff.mp h1 with ⟨c, hc, rfl⟩ | ⟨a, rfl, ha⟩
  · exact ⟨c :: w, rfl, .space hc hw, by simp, hr⟩
  · exact ⟨_, by simp, .comment ha hw, by simp, hr⟩

/-! ### Single-line comments -/

theorem newlineEof_ok {s r : Str} {u : Unit} : (newline <+> eof) s = .ok u r ↔
    ∃ nl, s = nl ++ r ∧ (NewlineSeq nl r ∨ (nl = [] ∧ r = [])) := by
  constructor
  · intro h
    rcases alt_ok.mp h with h | ⟨_, h⟩
    · obtain ⟨nl, rfl, h'⟩ := newline_seq_inv h
      exact ⟨nl, rfl, Or.inl h'⟩
    · obtain ⟨rfl, rfl⟩ := eof_ok.mp h
      exact ⟨[], rfl, Or.inr ⟨rfl, rfl⟩⟩
  · rintro ⟨nl, rfl, h | ⟨rfl, rfl⟩⟩
    · exact alt_left (newline_seq h)
    · rfl

theorem newlineEof_back {s : Str} : (newline <+> eof) s = .back ↔ ∃ c q, s = c :: q ∧ ¬ Newline c := by
  cases s with
  | nil =>
    constructor
    · intro h; cases h
    · rintro ⟨_, _, ⟨⟩, _⟩
  | cons c q =>
    by_cases hc : Newline c
    · constructor
      · intro h
        obtain ⟨q', h'⟩ := newline_ok_of (q := q) hc
        rw [alt_left h'] at h; cases h
      · rintro ⟨_, _, ⟨⟩, h⟩; exact absurd hc h
    · refine ⟨fun _ => ⟨c, q, rfl, hc⟩, fun _ => ?_⟩
      rw [alt_right (newline_back (by rintro _ _ ⟨⟩; exact hc))]
      exact eof_back.mpr (by simp)

theorem singleLineComment_iff {s r : Str} {u : Unit} :
    singleLineComment s = .ok u r ↔ ∃ m, s = m ++ r ∧ LineComment m r := by
  unfold singleLineComment
  constructor
  · intro h
    rw [bind_ok] at h
    obtain ⟨_, s1, h1, h2⟩ := h
    have h1 := lit_ok.mp h1
    simp only [List.cons_append, List.nil_append] at h1
    subst h1
    obtain ⟨x, h2⟩ := void_ok.mp h2
    have key : ∀ {l : List Char} {u : Unit} {s r : Str},
        RepTill (do notP (newline <+> eof); anyChar) (newline <+> eof) s l u r →
        ∃ b nl, s = b ++ nl ++ r ∧ (∀ c ∈ b, ¬ Newline c) ∧ (NewlineSeq nl r ∨ (nl = [] ∧ r = [])) := by
      intro l u s r h
      induction h with
      | nil h =>
        obtain ⟨nl, rfl, h'⟩ := newlineEof_ok.mp h
        exact ⟨[], nl, rfl, by simp, h'⟩
      | cons hb hx _ _ ih =>
        obtain ⟨b, nl, rfl, h1, h2⟩ := ih
        obtain ⟨c, q, rfl, hc⟩ := newlineEof_back.mp hb
        rw [bind_ok] at hx
        obtain ⟨_, s1, h3, h4⟩ := hx
        have h3 := (notP_ok.mp h3).1
        subst h3
        have h4 := anyChar_ok.mp h4
        obtain ⟨rfl, rfl⟩ := List.cons.inj h4
        exact ⟨c :: b, nl, rfl, by simpa using ⟨hc, h1⟩, h2⟩
    obtain ⟨l, u'⟩ := x
    obtain ⟨b, nl, rfl, h3, h4⟩ := key (repTill_inv h2)
    exact ⟨'/' :: '/' :: (b ++ nl), by simp, b, nl, rfl, h3, h4⟩
  · rintro ⟨m, rfl, b, nl, rfl, hb, hnl⟩
    have e3 : lit ['/', '/'] ('/' :: '/' :: (b ++ nl) ++ r) = .ok () (b ++ (nl ++ r)) := by
      rw [← List.append_assoc]; rfl
    rw [bind_eq e3]
    have key : ∃ l, RepTill (do notP (newline <+> eof); anyChar) (newline <+> eof) (b ++ (nl ++ r)) l () r := by
      clear e3
      induction b with
      | nil => exact ⟨[], .nil (newlineEof_ok.mpr ⟨nl, rfl, hnl⟩)⟩
      | cons c b ih =>
        obtain ⟨l, hl⟩ := ih fun c hc => hb c (by simp [hc])
        have hc : (newline <+> eof) (c :: (b ++ (nl ++ r))) = .back := newlineEof_back.mpr ⟨c, _, rfl, hb c (by simp)⟩
        refine ⟨c :: l, .cons hc ?_ (by simp) hl⟩
        have e4 : notP (newline <+> eof) (c :: (b ++ (nl ++ r))) = .ok () (c :: (b ++ (nl ++ r))) := notP_eq hc
        rw [List.cons_append, bind_eq e4]
        exact anyChar_ok.mpr rfl
    obtain ⟨l, hl⟩ := key
    exact void_eq (repTill_of hl)

theorem singleLineComment_back {s : Str} (h : ∀ q, s ≠ '/' :: '/' :: q) : singleLineComment s = .back :=
  bind_back (lit_back.mpr h)

/-! ### Line continuations -/

theorem lineEnd_iff {s r : Str} {u : Unit} :
    (singleLineComment <+> newline <+> eof) s = .ok u r ↔ ∃ m, s = m ++ r ∧ LineEnd m r := by
  constructor
  · intro h
    rcases alt_ok.mp h with h | ⟨_, h⟩
    · obtain ⟨m, rfl, h'⟩ := singleLineComment_iff.mp h
      exact ⟨m, rfl, Or.inr (Or.inl h')⟩
    · obtain ⟨nl, rfl, h' | h'⟩ := newlineEof_ok.mp h
      · exact ⟨nl, rfl, Or.inl h'⟩
      · exact ⟨nl, rfl, Or.inr (Or.inr h')⟩
  · rintro ⟨m, rfl, h | h | h⟩
    · rw [alt_right]
      · exact newlineEof_ok.mpr ⟨m, rfl, Or.inl h⟩
      · apply singleLineComment_back
        intro q e
        rcases h with rfl | ⟨c, rfl, hc, _⟩
        · exact absurd (List.cons.inj e).1 (by decide)
        · rw [(List.cons.inj e).1] at hc
          revert hc; decide
    · exact alt_left (singleLineComment_iff.mpr ⟨m, rfl, h⟩)
    · obtain ⟨rfl, rfl⟩ := h
      rfl

theorem Spec.LineEnd.ws {m x : Str} (h : LineEnd m x) : Kdl.ws (m ++ x) = .back := by
  rcases h with h | h | ⟨rfl, rfl⟩
  · have hm : ∃ c q, m ++ x = c :: q ∧ Newline c := by
      rcases h with rfl | ⟨c, rfl, hc, _⟩
      · exact ⟨_, _, rfl, by decide⟩
      · exact ⟨_, _, rfl, hc⟩
    obtain ⟨c, q, e, hc⟩ := hm
    rw [e]
    apply ws_back
    · rintro _ _ ⟨⟩
      exact (newline_facts hc).2.2.2.2.2.2.2.2.2.2.2.2
    · intro q' e'
      exact (newline_facts hc).1 (List.cons.inj e').1
  · obtain ⟨b, nl, rfl, _⟩ := h
    apply ws_back
    · intro c q e
      rw [← (List.cons.inj e).1]; decide
    · intro q e
      exact absurd (List.cons.inj (List.cons.inj e).2).1 (by decide)
  · apply ws_back <;> simp

theorem escline_eq {b m a r : Str} (hb : WSeq b) (hm : LineEnd m (a ++ r)) (ha : WSeq a) (hr : ws r = .back) :
    escline ('\\' :: (b ++ (m ++ (a ++ r)))) = .ok () r := by
  unfold escline
  have e1 : lit ['\\'] ('\\' :: (b ++ (m ++ (a ++ r)))) = .ok () (b ++ (m ++ (a ++ r))) := lit_one _ _
  have e2 : (singleLineComment <+> newline <+> eof) (m ++ (a ++ r)) = .ok () (a ++ r) := lineEnd_iff.mpr ⟨m, rfl, hm⟩
  rw [bind_eq e1, bind_eq (wss_eq hb hm.ws), bind_eq e2]
  exact wss_eq ha hr

theorem escline_inv {s r : Str} {u : Unit} (h : escline s = .ok u r) :
    ∃ b m a, s = '\\' :: (b ++ (m ++ (a ++ r))) ∧ WSeq b ∧ LineEnd m (a ++ r) ∧ WSeq a ∧ ws r = .back := by
  unfold escline at h
  rw [bind_ok] at h
  obtain ⟨_, s1, h1, h⟩ := h
  rw [bind_ok] at h
  obtain ⟨_, s2, h2, h⟩ := h
  rw [bind_ok] at h
  obtain ⟨_, s3, h3, h4⟩ := h
  obtain ⟨a, rfl, ha, hr⟩ := wss_inv h4
  obtain ⟨m, rfl, hm⟩ := lineEnd_iff.mp h3
  obtain ⟨b, rfl, hb, _⟩ := wss_inv h2
  have h1 := lit_ok.mp h1
  exact ⟨b, m, a, h1, hb, hm, ha, hr⟩

/-! ### Node space -/

theorem wss_noBack (s : Str) : wss s ≠ .back := by
  unfold wss Kdl.void
  intro e
  cases hh : rep0 ws s with
  | ok l q' => rw [bind_eq hh] at e; cases e
  | back => exact NoBack.rep0 _ _ hh
  | cut => rw [bind_cut hh] at e; cases e
  | crash => rw [bind_crash hh] at e; cases e

theorem nodeSpace_back_iff {r : Str} : nodeSpace r = .back ↔ ws r = .back ∧ escline r = .back := by
  constructor
  · intro hr
    have hws : ws r = .back := by
      rcases ws_cases (s := r) with h | ⟨q, h⟩ | h
      · exact h
      · exfalso
        unfold nodeSpace at hr
        have h1 : wsp r ≠ .back := by
          intro e
          unfold wsp Kdl.void at e
          cases h' : rep1 ws r with
          | ok a q => rw [bind_eq h'] at e; cases e
          | back =>
            unfold rep1 at h'
            rw [bind_eq h] at h'
            cases hq : rep0 ws q with
            | ok l q' => rw [bind_eq hq] at h'; cases h'
            | back => exact NoBack.rep0 _ _ hq
            | cut => rw [bind_cut hq] at h'; cases h'
            | crash => rw [bind_crash hq] at h'; cases h'
          | cut => rw [bind_cut h'] at e; cases e
          | crash => rw [bind_crash h'] at e; cases e
        cases ha : (do wss; escline; wss : P Unit) r with
        | ok a q => rw [alt_left ha] at hr; cases hr
        | back => rw [alt_right ha] at hr; exact h1 hr
        | cut => rw [alt_cut ha] at hr; cases hr
        | crash => unfold P.alt at hr; rw [ha] at hr; cases hr
      · exfalso
        have : (do wss; escline; wss : P Unit) r = .cut := by
          apply bind_cut
          unfold wss Kdl.void
          apply bind_cut
          rw [rep0_unfold, h]
        unfold nodeSpace at hr
        rw [alt_cut this] at hr; cases hr
    refine ⟨hws, ?_⟩
    have h0 : wss r = .ok () r := void_eq (rep0_nil hws)
    unfold nodeSpace at hr
    cases he : escline r with
    | back => rfl
    | ok a q =>
      exfalso
      have h1 : (do wss; escline; wss : P Unit) r = wss q := by
        rw [bind_eq h0, bind_eq he]
      cases hq : wss q with
      | ok a q => rw [alt_left (h1.trans hq)] at hr; cases hr
      | back => exact wss_noBack _ hq
      | cut => rw [alt_cut (h1.trans hq)] at hr; cases hr
      | crash => unfold P.alt at hr; rw [h1.trans hq] at hr; cases hr
    | cut =>
      exfalso
      rw [alt_cut (by rw [bind_eq h0]; exact bind_cut he)] at hr
      cases hr
    | crash =>
      exfalso
      have h1 : (do wss; escline; wss : P Unit) r = .crash := by rw [bind_eq h0]; exact bind_crash he
      unfold P.alt at hr; rw [h1] at hr; cases hr
  · rintro ⟨h1, h2⟩
    unfold nodeSpace
    have h0 : wss r = .ok () r := void_eq (rep0_nil h1)
    rw [alt_right (by rw [bind_eq h0]; exact bind_back h2)]
    exact void_back (bind_back h1)

/-- A line continuation as the first thing that is not white space. -/
structure Cont (r t : Str) (b m t' : Str) : Prop where
  eq : t = '\\' :: (b ++ (m ++ t'))
  hb : WSeq b
  hm : LineEnd m (t' ++ r)
  ht : NSpace r t'

theorem Spec.NSpace.split {r w : Str} (h : NSpace r w) : ∃ a t, w = a ++ t ∧ WSeq a ∧
    (t = [] ∨ ∃ b m t', Cont r t b m t') := by
  induction h with
  | nil => exact ⟨[], [], rfl, .nil, Or.inl rfl⟩
  | @space c t h1 _ ih =>
    obtain ⟨a, t, rfl, ha, ht⟩ := ih
    exact ⟨c :: a, t, rfl, .space h1 ha, ht⟩
  | comment h1 _ ih =>
    obtain ⟨a, t, rfl, ha, ht⟩ := ih
    exact ⟨_, t, by simp, .comment h1 ha, ht⟩
  | cont hb hm ht => exact ⟨[], _, rfl, .nil, Or.inr ⟨_, _, _, rfl, hb, hm, ht⟩⟩

theorem Spec.WSeq.nspace {r a t : Str} (ha : WSeq a) (ht : NSpace r t) : NSpace r (a ++ t) := by
  induction ha with
  | nil => exact ht
  | space h1 _ ih => exact .space h1 ih
  | comment h1 _ ih =>
    have := NSpace.comment h1 ih
    simpa using this

theorem ws_backslash (q : Str) : ws ('\\' :: q) = .back := by
  apply ws_back
  · intro c q e
    rw [← (List.cons.inj e).1]; decide
  · rintro _ ⟨⟩

theorem nodeSpace_cont {a b m c r : Str} (ha : WSeq a) (hb : WSeq b) (hm : LineEnd m (c ++ r)) (hc : WSeq c)
    (hr : ws r = .back) : nodeSpace (a ++ '\\' :: (b ++ (m ++ (c ++ r)))) = .ok () r := by
  unfold nodeSpace
  apply alt_left
  have h0 : wss r = .ok () r := void_eq (rep0_nil hr)
  rw [bind_eq (wss_eq ha (ws_backslash _)), bind_eq (escline_eq hb hm hc hr)]
  exact h0

theorem nodeSpace_ws {a r : Str} (ha : WSeq a) (hne : a ≠ []) (hr : ws r = .back) (he : escline r = .back) :
    nodeSpace (a ++ r) = .ok () r := by
  unfold nodeSpace
  rw [alt_right]
  · exact wsp_eq ha hne hr
  · rw [bind_eq (wss_eq ha hr)]
    exact bind_back he

theorem nodeSpace0_eq {r : Str} (hr : nodeSpace r = .back) : ∀ (n : Nat) {w : Str}, w.length ≤ n → NSpace r w →
    ∃ l, rep0 nodeSpace (w ++ r) = .ok l r := by
  obtain ⟨h1, h2⟩ := nodeSpace_back_iff.mp hr
  intro n
  induction n with
  | zero =>
    intro w hn h
    have : w = [] := List.eq_nil_of_length_eq_zero (by omega)
    subst this
    exact ⟨[], rep0_nil hr⟩
  | succ n ih =>
    intro w hn h
    obtain ⟨a, t, rfl, ha, ht⟩ := h.split
    rcases ht with rfl | ⟨b, m, t', rfl, hb, hm, ht'⟩
    · rw [List.append_nil]
      by_cases hne : a = []
      · subst hne; exact ⟨[], rep0_nil hr⟩
      · refine ⟨[()], rep0_cons (nodeSpace_ws ha hne h1 h2) ?_ (rep0_nil hr)⟩
        have := List.length_pos_iff.mpr hne
        simp only [List.length_append]
        omega
    · obtain ⟨c, t, rfl, hc, ht⟩ := ht'.split
      have hs : ws (t ++ r) = .back := by
        rcases ht with rfl | ⟨_, _, _, rfl, _⟩
        · exact h1
        · exact ws_backslash _
      have hn' : NSpace r t := by
        rcases ht with rfl | ⟨_, _, _, rfl, hb', hm', ht''⟩
        · exact .nil
        · exact .cont hb' hm' ht''
      simp only [List.length_append, List.length_cons] at hn
      obtain ⟨l, hl⟩ := ih (w := t) (by omega) hn'
      rw [List.append_assoc] at hm
      have := nodeSpace_cont ha hb hm hc hs
      refine ⟨() :: l, rep0_cons (r := t ++ r) ?_ ?_ hl⟩
      · simpa using this
      · simp only [List.length_append, List.length_cons]; omega

theorem nodeSpace_inv {s q : Str} {u : Unit} (h : nodeSpace s = .ok u q) :
    ∃ w, s = w ++ q ∧ w ≠ [] ∧ ∀ r t, q = t ++ r → NSpace r t → NSpace r (w ++ t) := by
  unfold nodeSpace at h
  rcases alt_ok.mp h with h | ⟨_, h⟩
  · rw [bind_ok] at h
    obtain ⟨_, s1, h1, h⟩ := h
    rw [bind_ok] at h
    obtain ⟨_, s2, h2, h3⟩ := h
    obtain ⟨d, rfl, hd, _⟩ := wss_inv h3
    obtain ⟨b, m, c, rfl, hb, hm, hc, _⟩ := escline_inv h2
    obtain ⟨a, rfl, ha, _⟩ := wss_inv h1
    refine ⟨a ++ '\\' :: (b ++ (m ++ (c ++ d))), by simp, by simp, ?_⟩
    rintro r t rfl ht
    have h4 := hc.nspace (hd.nspace ht)
    have := ha.nspace (NSpace.cont (r := r) hb (m := m) (by simpa using hm) h4)
    simpa using this
  · obtain ⟨w, rfl, hw, hne, _⟩ := wsp_inv h
    exact ⟨w, rfl, hne, fun r t _ ht => hw.nspace ht⟩

theorem nspace_of_rep {s r : Str} {l : List Unit} (h : Rep nodeSpace s l r) :
    ∃ w, s = w ++ r ∧ NSpace r w ∧ nodeSpace r = .back := by
  induction h with
  | nil h => exact ⟨[], rfl, .nil, h⟩
  | cons hx _ _ ih =>
    obtain ⟨w, rfl, hw, hr⟩ := ih
    obtain ⟨v, rfl, _, hv⟩ := nodeSpace_inv hx
    exact ⟨v ++ w, by simp, hv _ _ rfl hw, hr⟩

/-- Node space, exactly. -/
theorem nodeSpace0_iff {s r : Str} {u : Unit} :
    nodeSpace0 s = .ok u r ↔ ∃ w, s = w ++ r ∧ NSpace r w ∧ nodeSpace r = .back := by
  constructor
  · intro h
    obtain ⟨l, h⟩ := void_ok.mp h
    exact nspace_of_rep (rep_of_rep0 h)
  · rintro ⟨w, rfl, hw, hr⟩
    obtain ⟨l, hl⟩ := nodeSpace0_eq hr _ (Nat.le_refl _) hw
    exact void_eq hl

/-- White space whatever follows. -/
theorem WSp.nspace {w : Str} (h : ∀ r, NSpace r w) : WSp w :=
  fun r hr => nodeSpace0_iff.mpr ⟨w, rfl, h r, hr⟩

theorem WSp.wseq {w : Str} (h : WSeq w) : WSp w :=
  WSp.nspace fun r => by
    have := h.nspace (r := r) .nil
    rwa [List.append_nil] at this

end Kdl
