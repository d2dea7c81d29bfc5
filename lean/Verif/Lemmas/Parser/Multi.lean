import Verif.Lemmas.Parser.Quoted
/-
Multi-line strings.
-/

namespace Kdl
open Spec

/-! ### Newline sequences -/

theorem newline_seq {nl t : Str} (h : NewlineSeq nl t) : newline (nl ++ t) = .ok () t := by
  rcases h with rfl | ⟨c, rfl, hc, h⟩
  · rfl
  · refine newline_cons hc ?_
    by_cases e : c = '\r'
    · exact Or.inr (h e)
    · exact Or.inl e

theorem newline_seq_inv {s r : Str} {u : Unit} (h : newline s = .ok u r) : ∃ nl, s = nl ++ r ∧ NewlineSeq nl r := by
  cases s with
  | nil => cases h
  | cons c q =>
    by_cases hc : Newline c
    · by_cases e : c = '\r' ∧ ∃ q', q = '\n' :: q'
      · obtain ⟨rfl, q', rfl⟩ := e
        cases h
        exact ⟨['\r', '\n'], rfl, Or.inl rfl⟩
      · have h2 : newline (c :: q) = .ok () q := by
          refine newline_cons hc ?_
          by_cases hr : c = '\r'
          · exact Or.inr fun q' e' => e ⟨hr, q', e'⟩
          · exact Or.inl hr
        rw [h2] at h
        cases h
        exact ⟨[c], rfl, Or.inr ⟨c, rfl, hc, fun e' q' e'' => e ⟨e', q', e''⟩⟩⟩
    · rw [newline_back (by rintro _ _ ⟨⟩; exact hc)] at h
      cases h

theorem Spec.NewlineSeq.head {nl t : Str} (h : NewlineSeq nl t) : ∃ c q, nl = c :: q ∧ Newline c := by
  rcases h with rfl | ⟨c, rfl, hc, _⟩
  · exact ⟨'\r', ['\n'], rfl, by decide⟩
  · exact ⟨c, [], rfl, hc⟩

theorem Spec.NewlineSeq.append {nl t : Str} (h : NewlineSeq nl t) {r : Str} (hr : t = [] → ∀ q, r ≠ '\n' :: q) :
    NewlineSeq nl (t ++ r) := by
  rcases h with rfl | ⟨c, rfl, hc, h⟩
  · exact Or.inl rfl
  · refine Or.inr ⟨c, rfl, hc, fun e q e' => ?_⟩
    cases t with
    | nil => exact hr rfl q e'
    | cons a t =>
      rw [List.cons_append, List.cons.injEq] at e'
      obtain ⟨rfl, _⟩ := e'
      exact h e _ rfl

/-- What follows a line: a newline sequence. -/
def AtNewline (s : Str) : Prop := ∃ c q, s = c :: q ∧ Newline c

theorem Spec.NewlineSeq.at {nl t : Str} (h : NewlineSeq nl t) : AtNewline (nl ++ t) := by
  obtain ⟨c, q, rfl, hc⟩ := h.head
  exact ⟨c, q ++ t, rfl, hc⟩

theorem AtNewline.ok {s : Str} (h : AtNewline s) : ∃ r, newline s = .ok () r := by
  obtain ⟨c, q, rfl, hc⟩ := h
  exact newline_ok_of hc

theorem newline_chars {c : Char} (h : Newline c) : c ≠ '"' ∧ c ≠ '\\' ∧ ¬ Space c := by
  refine ⟨by rintro rfl; exact absurd h (by decide), by rintro rfl; exact absurd h (by decide), ?_⟩
  exact fun hs => space_not_newline hs h

theorem space_chars {c : Char} (h : Space c) : c ≠ '"' ∧ c ≠ '\\' ∧ ¬ Newline c ∧ ¬ Disallowed c := by
  refine ⟨by rintro rfl; exact absurd h (by decide), by rintro rfl; exact absurd h (by decide), space_not_newline h, ?_⟩
  unfold Space spaceCodes at h
  unfold Disallowed disallowedCodes
  simp only [List.mem_cons, List.not_mem_nil, or_false] at *
  omega

/-! ### The items of a line -/

theorem mlChar_guard {c : Char} {q : Str} (h : ¬ Newline c) : notP newline (c :: q) = .ok () (c :: q) :=
  notP_eq (newline_back (by rintro _ _ ⟨⟩; exact h))

theorem mlChar_char {c d : Char} {t r : Str} (h : ¬ Newline c) (hq : c ≠ '"') (h1 : wsEscape (c :: t) = .back)
    (h2 : stringChar (c :: t) = .ok d r) : mlChar (c :: t) = .ok (some d) r := by
  unfold mlChar
  rw [bind_eq (mlChar_guard h), alt_right (bind_back h1), alt_right (bind_back (lit_cons_ne (Ne.symm hq))),
    alt_right (bind_back (lit_cons_ne (Ne.symm hq))), bind_eq h2]
  rfl

theorem mlChar_quote {t : Str} (h : ∀ q, t ≠ '"' :: '"' :: q) : mlChar ('"' :: t) = .ok (some '"') t := by
  unfold mlChar
  rw [bind_eq (mlChar_guard (by decide)), alt_right (bind_back (wsEscape_back' (by rintro q ⟨⟩)))]
  apply alt_left
  rw [bind_eq (lit_one _ _), bind_eq (notP_eq (lit_back.mpr h))]
  rfl

theorem mlChar_space {w t : Str} (h1 : w ≠ []) (h2 : ∀ c ∈ w, Blank c) (h3 : NoBlank t) :
    mlChar ('\\' :: (w ++ t)) = .ok none t := by
  unfold mlChar
  rw [bind_eq (mlChar_guard (by decide))]
  apply alt_left
  rw [bind_eq (wsEscape_eq h1 h2 h3)]
  rfl

theorem mlChar_newline {s : Str} (h : AtNewline s) : mlChar s = .back := by
  obtain ⟨r, hr⟩ := h.ok
  unfold mlChar
  exact bind_back (notP_back hr)

theorem not_newline {c : Char} {q : Str} (h : ¬ Newline c) : newline (c :: q) = .back :=
  newline_back (by rintro _ _ ⟨⟩; exact h)

theorem not_quotes {t s : Str} (h : ∀ q, t ≠ '"' :: '"' :: q) (hs : AtNewline s) : ∀ q, t ++ s ≠ '"' :: '"' :: q := by
  obtain ⟨c, q', rfl, hc⟩ := hs
  have := (newline_chars hc).1
  intro q e
  cases t with
  | nil => exact this (List.cons.inj e).1
  | cons a t =>
    cases t with
    | nil => exact this (List.cons.inj (List.cons.inj e).2).1
    | cons b t =>
      simp only [List.cons_append, List.cons.injEq] at e
      obtain ⟨rfl, rfl, _⟩ := e
      exact h _ rfl

theorem noBlank_append {t s : Str} (h : NoBlank t) (h0 : t ≠ []) : NoBlank (t ++ s) := by
  cases t with
  | nil => exact absurd rfl h0
  | cons c t => rintro _ _ ⟨⟩; exact h _ _ rfl

/-- Reading a line up to its newline. -/
theorem mline_forward {t v s s' : Str} (h : MLine t v) (hs : AtNewline s) (hn : newline s = .ok () s') :
    ∃ l, Rep mlChar (t ++ s) l s ∧ RepTill mlChar newline (t ++ s) l () s' ∧ l.filterMap id = v := by
  induction h with
  | nil => exact ⟨[], .nil (mlChar_newline hs), .nil hn, rfl⟩
  | @plain c t v h1 h2 h3 h4 _ ih =>
    obtain ⟨l, hl, hl', rfl⟩ := ih
    have hi : mlChar (c :: (t ++ s)) = .ok (some c) (t ++ s) :=
      mlChar_char h3 h2 (wsEscape_back' (by rintro q ⟨⟩; exact h1 rfl)) (stringChar_plain h1 h2 h4)
    exact ⟨some c :: l, .cons hi (by simp) hl, .cons (not_newline h3) hi (by simp) hl', by simp⟩
  | @quote t v h1 _ ih =>
    obtain ⟨l, hl, hl', rfl⟩ := ih
    have hi : mlChar ('"' :: (t ++ s)) = .ok (some '"') (t ++ s) := mlChar_quote (not_quotes h1 hs)
    exact ⟨some '"' :: l, .cons hi (by simp) hl, .cons (not_newline (by decide)) hi (by simp) hl', by simp⟩
  | @escape e c t v h1 _ ih =>
    obtain ⟨l, hl, hl', rfl⟩ := ih
    have hi : mlChar ('\\' :: e :: (t ++ s)) = .ok (some c) (t ++ s) :=
      mlChar_char (by decide) (by decide) (wsEscape_back (by rintro c' q ⟨⟩; exact (escape_not_blank h1).1))
        (alt_left (escapedChar_simple h1))
    exact ⟨some c :: l, .cons hi (by simp; omega) hl, .cons (not_newline (by decide)) hi (by simp; omega) hl', by simp⟩
  | @unicode hx t v c h1 h2 h3 h4 _ ih =>
    obtain ⟨l, hl, hl', rfl⟩ := ih
    have e : '\\' :: 'u' :: '{' :: (hx ++ '}' :: t) ++ s = '\\' :: 'u' :: '{' :: (hx ++ '}' :: (t ++ s)) := by simp
    have hi : mlChar ('\\' :: 'u' :: '{' :: (hx ++ '}' :: (t ++ s))) = .ok (some c) (t ++ s) :=
      mlChar_char (by decide) (by decide) (wsEscape_back (by rintro c' q ⟨⟩; decide))
        (alt_left (escapedChar_unicode h1 h2 h3 h4))
    rw [e]
    exact ⟨some c :: l, .cons hi (by simp; omega) hl, .cons (not_newline (by decide)) hi (by simp; omega) hl', by simp⟩
  | @space w t v h0 h1 h2 h3 _ ih =>
    obtain ⟨l, hl, hl', rfl⟩ := ih
    have e : '\\' :: (w ++ t) ++ s = '\\' :: (w ++ (t ++ s)) := by simp
    have hi : mlChar ('\\' :: (w ++ (t ++ s))) = .ok none (t ++ s) := mlChar_space h1 h2 (noBlank_append h3 h0)
    rw [e]
    exact ⟨none :: l, .cons hi (by simp; omega) hl, .cons (not_newline (by decide)) hi (by simp; omega) hl', by simp⟩

/-- What a line of a multi-line string looks like. -/
theorem mline_inv {s r : Str} {l : List (Option Char)} {u : Unit} (h : RepTill mlChar newline s l u r) :
    ∃ t nl, s = t ++ (nl ++ r) ∧ NewlineSeq nl r ∧ MLine t (l.filterMap id) := by
  induction h with
  | nil h =>
    obtain ⟨nl, rfl, h'⟩ := newline_seq_inv h
    exact ⟨[], nl, rfl, h', .nil⟩
  | @cons s q r a as b he h hl ht ih =>
    obtain ⟨t, nl, e1, e2, hq⟩ := ih
    subst e1
    unfold mlChar at h
    rw [bind_ok] at h
    obtain ⟨_, s', h1, h⟩ := h
    rw [notP_ok] at h1
    obtain ⟨rfl, hnl⟩ := h1
    have hquote : (s' = '"' :: (t ++ (nl ++ r))) → ( ∀ q, t ++ (nl ++ r) ≠ '"' :: '"' :: q) →
        ∃ t' nl', s' = t' ++ (nl' ++ r) ∧ NewlineSeq nl' r ∧ MLine t' ('"' :: as.filterMap id) := by
      intro e h2
      refine ⟨'"' :: t, nl, by rw [e]; rfl, e2, .quote ?_ hq⟩
      rintro q rfl
      exact h2 _ rfl
    rcases alt_ok.mp h with h | ⟨hb, h⟩
    · rw [bind_ok] at h
      obtain ⟨_, q1, h2, h⟩ := h
      obtain ⟨rfl, hh⟩ := pure_ok.mp h
      subst hh
      obtain ⟨w, g1, g2, rfl, g3⟩ := wsEscape_inv h2
      refine ⟨'\\' :: (w ++ t), nl, by simp, e2, ?_⟩
      refine .space ?_ g1 g2 ?_ (by simpa using hq)
      · rintro rfl
        obtain ⟨c, q, rfl, hc⟩ := e2.head
        exact g3 _ _ rfl (Or.inr hc)
      · rintro c x rfl
        exact g3 c _ rfl
    · rcases alt_ok.mp h with h | ⟨_, h⟩
      · rw [bind_ok] at h
        obtain ⟨_, q1, h2, h⟩ := h
        rw [bind_ok] at h
        obtain ⟨_, q2, h3, h⟩ := h
        obtain ⟨rfl, hh⟩ := pure_ok.mp h
        subst hh
        obtain ⟨rfl, h3⟩ := notP_ok.mp h3
        exact hquote (lit_ok.mp h2) (lit_back.mp h3)
      · rcases alt_ok.mp h with h | ⟨_, h⟩
        · rw [bind_ok] at h
          obtain ⟨_, q1, h2, h⟩ := h
          rw [bind_ok] at h
          obtain ⟨_, q2, h3, h⟩ := h
          obtain ⟨rfl, hh⟩ := pure_ok.mp h
          subst hh
          obtain ⟨rfl, h3⟩ := notP_ok.mp h3
          exact hquote (lit_ok.mp h2) (fun q e => lit_back.mp h3 _ e)
        · rw [bind_ok] at h
          obtain ⟨c, q1, h2, h⟩ := h
          obtain ⟨rfl, hh⟩ := pure_ok.mp h
          subst hh
          have e3 : (some c :: as).filterMap id = c :: as.filterMap id := by simp
          rw [e3]
          rcases stringChar_inv h2 with ⟨e, g1, rfl⟩ | ⟨hx, g1, g2, g3, g4, rfl⟩ | ⟨rfl, g1, g2, g3⟩
          · exact ⟨'\\' :: e :: t, nl, by simp, e2, .escape g1 hq⟩
          · exact ⟨'\\' :: 'u' :: '{' :: (hx ++ '}' :: t), nl, by simp, e2, .unicode g1 g2 g3 g4 hq⟩
          · refine ⟨c :: t, nl, by simp, e2, .plain g1 g2 ?_ g3 hq⟩
            intro hn
            obtain ⟨r', hr⟩ := newline_ok_of (q := t ++ (nl ++ r)) hn
            rw [hr] at hnl; cases hnl

/-! ### Blanks at the start of a line -/

theorem blankItem_space {c : Char} {q : Str} (h : Space c) : (wsEscape <+> unicodeSpace) (c :: q) = .ok () q := by
  rw [alt_right (wsEscape_back' (by rintro _ ⟨⟩; exact (space_chars h).2.1 rfl))]
  exact unicodeSpace_eq h

theorem blankItem_back {c : Char} {q : Str} (h1 : ¬ Space c) (h2 : c ≠ '\\') :
    (wsEscape <+> unicodeSpace) (c :: q) = .back := by
  rw [alt_right (wsEscape_back' (by rintro _ ⟨⟩; exact h2 rfl))]
  exact unicodeSpace_back (by rintro _ _ ⟨⟩; exact h1)

theorem blankItem_esc_back {q : Str} (h : NoBlank q) : (wsEscape <+> unicodeSpace) ('\\' :: q) = .back := by
  rw [alt_right (wsEscape_back h)]
  exact unicodeSpace_back (by rintro _ _ ⟨⟩; decide)

/-- The blanks at the start of a line do not end at three quotes. -/
theorem lead_stop {t v s : Str} (h : MLine t v) (hs : AtNewline s) :
    ∃ l q, rep0 (wsEscape <+> unicodeSpace) (t ++ s) = .ok l q ∧ (∀ x, q ≠ tripleQuote ++ x) ∧
      ((∃ a ∈ t, ¬ Space a) → ∀ c x, q = c :: x → ¬ Newline c) := by
  induction h with
  | nil =>
    obtain ⟨c, q, rfl, hc⟩ := hs
    have := newline_chars hc
    refine ⟨[], c :: q, rep0_nil (blankItem_back this.2.2 this.2.1), ?_, ?_⟩
    · intro x e
      exact this.1 (List.cons.inj e).1
    · rintro ⟨_, ⟨⟩, _⟩
  | @plain c t v h1 h2 h3 h4 _ ih =>
    by_cases hc : Space c
    · obtain ⟨l, q, g1, g2, g3⟩ := ih
      refine ⟨() :: l, q, rep0_cons (blankItem_space hc) (by simp) g1, g2, ?_⟩
      rintro ⟨a, ha, hn⟩
      refine g3 ⟨a, ?_, hn⟩
      rcases List.mem_cons.mp ha with rfl | ha
      · exact absurd hc hn
      · exact ha
    · refine ⟨[], _, rep0_nil (blankItem_back hc h1), ?_, ?_⟩
      · intro x e
        exact h2 (List.cons.inj e).1
      · rintro _ _ _ ⟨⟩
        exact h3
  | @quote t v h1 _ _ =>
    refine ⟨[], _, rep0_nil (blankItem_back (by decide) (by decide)), ?_, ?_⟩
    · intro x e
      exact not_quotes h1 hs _ (List.cons.inj e).2
    · rintro _ _ _ ⟨⟩
      decide
  | @escape e c t v h1 _ _ =>
    refine ⟨[], _, rep0_nil (blankItem_esc_back (by rintro c' q ⟨⟩; exact (escape_not_blank h1).1)), ?_, ?_⟩
    · intro x e
      exact absurd (List.cons.inj e).1 (by decide)
    · rintro _ _ _ ⟨⟩
      decide
  | @unicode hx t v c h1 h2 h3 h4 _ _ =>
    refine ⟨[], _, rep0_nil (blankItem_esc_back (by rintro c' q ⟨⟩; decide)), ?_, ?_⟩
    · intro x e
      exact absurd (List.cons.inj e).1 (by decide)
    · rintro _ _ _ ⟨⟩
      decide
  | @space w t v h0 h1 h2 h3 _ ih =>
    obtain ⟨l, q, g1, g2, g3⟩ := ih
    have e : '\\' :: (w ++ t) ++ s = '\\' :: (w ++ (t ++ s)) := by simp
    rw [e]
    refine ⟨() :: l, q, rep0_cons (alt_left (wsEscape_eq h1 h2 (noBlank_append h3 h0))) (by simp; omega) g1, g2, ?_⟩
    intro _
    cases t with
    | nil => exact absurd rfl h0
    | cons a t => exact g3 ⟨a, List.mem_cons_self, fun hsp => h3 _ _ rfl (Or.inl hsp)⟩

theorem esc_stop {t v s : Str} (h : MLine t v) (hs : AtNewline s) :
    ∃ l q, rep0 wsEscape (t ++ s) = .ok l q ∧ (∀ x, q ≠ tripleQuote ++ x) := by
  have plainCase : ∀ {c : Char} {q : Str}, c ≠ '\\' → c ≠ '"' →
      ∃ l q', rep0 wsEscape (c :: q) = .ok l q' ∧ (∀ x, q' ≠ tripleQuote ++ x) := by
    intro c q h1 h2
    exact ⟨[], _, rep0_nil (wsEscape_back' (by rintro _ ⟨⟩; exact h1 rfl)), fun x e => h2 (List.cons.inj e).1⟩
  induction h with
  | nil =>
    obtain ⟨c, q, rfl, hc⟩ := hs
    have := newline_chars hc
    exact plainCase this.2.1 this.1
  | @plain c t v h1 h2 h3 h4 _ ih => exact plainCase h1 h2
  | @quote t v h1 _ _ =>
    exact ⟨[], _, rep0_nil (wsEscape_back' (by rintro _ ⟨⟩)), fun x e => not_quotes h1 hs _ (List.cons.inj e).2⟩
  | @escape e c t v h1 _ _ =>
    exact ⟨[], _, rep0_nil (wsEscape_back (by rintro c' q ⟨⟩; exact (escape_not_blank h1).1)),
      fun x e => absurd (List.cons.inj e).1 (by decide)⟩
  | @unicode hx t v c h1 h2 h3 h4 _ _ =>
    exact ⟨[], _, rep0_nil (wsEscape_back (by rintro c' q ⟨⟩; decide)),
      fun x e => absurd (List.cons.inj e).1 (by decide)⟩
  | @space w t v h0 h1 h2 h3 _ ih =>
    obtain ⟨l, q, g1, g2⟩ := ih
    have e : '\\' :: (w ++ t) ++ s = '\\' :: (w ++ (t ++ s)) := by simp
    rw [e]
    exact ⟨() :: l, q, rep0_cons (wsEscape_eq h1 h2 (noBlank_append h3 h0)) (by simp; omega) g1, g2⟩

theorem Spec.MLine.spaces {sp t v : Str} (h : ∀ c ∈ sp, Space c) (ht : MLine t v) : MLine (sp ++ t) (sp ++ v) := by
  induction sp with
  | nil => exact ht
  | cons c sp ih =>
    have := space_chars (h c List.mem_cons_self)
    exact .plain this.2.1 this.1 this.2.2.1 this.2.2.2 (ih fun c hc => h c (List.mem_cons_of_mem _ hc))

theorem noBlank_quote (r : Str) : NoBlank ('"' :: r) := by rintro _ _ ⟨⟩; decide

theorem Spec.Escapes.noBlank {w : Str} (h : Escapes w) (r : Str) : NoBlank (w ++ '"' :: r) := by
  cases h with
  | nil => exact noBlank_quote r
  | cons => rintro _ _ ⟨⟩; decide

theorem noBlank_before {t : Str} (h : NoBlank t) (r : Str) : NoBlank (t ++ '"' :: r) := by
  cases t with
  | nil => exact noBlank_quote r
  | cons c t => rintro _ _ ⟨⟩; exact h _ _ rfl

theorem Spec.Escapes.rep {w : Str} (h : Escapes w) (r : Str) : ∃ l, rep0 wsEscape (w ++ '"' :: r) = .ok l ('"' :: r) := by
  induction h with
  | nil => exact ⟨[], rep0_nil (wsEscape_back' (by rintro _ ⟨⟩))⟩
  | @cons w t h1 h2 h3 _ ih =>
    obtain ⟨l, hl⟩ := ih
    have e : '\\' :: (w ++ t) ++ '"' :: r = '\\' :: (w ++ (t ++ '"' :: r)) := by simp
    rw [e]
    exact ⟨() :: l, rep0_cons (wsEscape_eq h1 h2 (noBlank_before h3 r)) (by simp; omega) hl⟩

theorem Spec.Escapes.blanks {w : Str} (h : Escapes w) (r : Str) :
    ∃ l, rep0 (wsEscape <+> unicodeSpace) (w ++ '"' :: r) = .ok l ('"' :: r) := by
  induction h with
  | nil => exact ⟨[], rep0_nil (blankItem_back (by decide) (by decide))⟩
  | @cons w t h1 h2 h3 _ ih =>
    obtain ⟨l, hl⟩ := ih
    have e : '\\' :: (w ++ t) ++ '"' :: r = '\\' :: (w ++ (t ++ '"' :: r)) := by simp
    rw [e]
    exact ⟨() :: l, rep0_cons (alt_left (wsEscape_eq h1 h2 (noBlank_before h3 r))) (by simp; omega) hl⟩

/-- One piece of the indentation of the closing line. -/
def indentItem : P Str := (do wsEscape; return []) <+> takeP unicodeSpace

theorem Spec.Escapes.indent {w : Str} (h : Escapes w) (r : Str) :
    ∃ l, rep0 indentItem (w ++ '"' :: r) = .ok l ('"' :: r) ∧ l.flatten = [] := by
  induction h with
  | nil =>
    refine ⟨[], rep0_nil ?_, rfl⟩
    unfold indentItem
    rw [alt_right (bind_back (wsEscape_back' (by rintro _ ⟨⟩)))]
    exact takeP_back (unicodeSpace_back (by rintro _ _ ⟨⟩; decide))
  | @cons w t h1 h2 h3 _ ih =>
    obtain ⟨l, hl, hf⟩ := ih
    have e : '\\' :: (w ++ t) ++ '"' :: r = '\\' :: (w ++ (t ++ '"' :: r)) := by simp
    rw [e]
    refine ⟨[] :: l, rep0_cons (r := t ++ '"' :: r) (alt_left ?_) (by simp; omega) hl, by simpa using hf⟩
    rw [bind_eq (wsEscape_eq h1 h2 (noBlank_before h3 r))]
    rfl

theorem spaces_blanks {p s : Str} (h : ∀ c ∈ p, Space c) {l : List Unit} {q : Str}
    (hs : rep0 (wsEscape <+> unicodeSpace) s = .ok l q) : ∃ l', rep0 (wsEscape <+> unicodeSpace) (p ++ s) = .ok l' q := by
  induction p with
  | nil => exact ⟨l, hs⟩
  | cons c p ih =>
    obtain ⟨l', hl⟩ := ih fun c hc => h c (List.mem_cons_of_mem _ hc)
    exact ⟨() :: l', rep0_cons (blankItem_space (h c List.mem_cons_self)) (by simp) hl⟩

theorem spaces_indent {p s : Str} (h : ∀ c ∈ p, Space c) {l : List Str} {q : Str}
    (hs : rep0 indentItem s = .ok l q) : ∃ l', rep0 indentItem (p ++ s) = .ok l' q ∧ l'.flatten = p ++ l.flatten := by
  induction p with
  | nil => exact ⟨l, hs, rfl⟩
  | cons c p ih =>
    obtain ⟨l', hl, hf⟩ := ih fun c hc => h c (List.mem_cons_of_mem _ hc)
    have hc := h c List.mem_cons_self
    refine ⟨[c] :: l', rep0_cons (r := p ++ s) ?_ (by simp) hl, by simp [hf]⟩
    unfold indentItem
    have e : takeP unicodeSpace (c :: (p ++ s)) = .ok [c] (p ++ s) := by
      have := takeP_eq (p := unicodeSpace) (t := [c]) (r := p ++ s) (unicodeSpace_eq (q := p ++ s) hc)
      exact this
    rw [List.cons_append, alt_right (bind_back (wsEscape_back' (by rintro _ ⟨⟩; exact (space_chars hc).2.1 rfl)))]
    exact e

/-! ### Forwards -/

/-- A line, for the look-ahead. -/
def lineScan : P Unit := do let _ ← rep0 mlChar; newline
/-- The end, for the look-ahead. -/
def scanEnd : P Unit := peek (do let _ ← rep0 (wsEscape <+> unicodeSpace); lit tripleQuote)
/-- The end of the body. -/
def bodyEnd (pre : Str) : P Unit := do lit pre; let _ ← rep0 wsEscape; peek (lit tripleQuote)

theorem scanEnd_back {s q : Str} {l : List Unit} (h1 : rep0 (wsEscape <+> unicodeSpace) s = .ok l q)
    (h2 : ∀ x, q ≠ tripleQuote ++ x) : scanEnd s = .back := by
  unfold scanEnd peek
  rw [bind_eq h1, lit_back.mpr h2]

theorem lineScan_eq {t v nl s : Str} (h : MLine t v) (hn : NewlineSeq nl s) : lineScan (t ++ (nl ++ s)) = .ok () s := by
  obtain ⟨l, h1, _⟩ := mline_forward h hn.at (newline_seq hn)
  unfold lineScan
  rw [bind_eq (rep0_of_rep h1)]
  exact newline_seq hn

theorem emptyLine_eq {sp nl s : Str} (h : ∀ c ∈ sp, Space c) (hn : NewlineSeq nl s) :
    emptyLine (sp ++ (nl ++ s)) = .ok () s := by
  obtain ⟨c, q, rfl, hc⟩ := hn.head
  have hc' := newline_chars hc
  have h0 : rep0 (wsEscape <+> unicodeSpace) (c :: (q ++ s)) = .ok [] (c :: (q ++ s)) :=
    rep0_nil (blankItem_back hc'.2.2 hc'.2.1)
  obtain ⟨l, hl⟩ := spaces_blanks h h0
  unfold emptyLine
  rw [List.cons_append, bind_eq hl]
  exact newline_seq hn

theorem emptyLine_line {t v s : Str} (h : MLine t v) (hs : AtNewline s) (hne : ∃ a ∈ t, ¬ Space a) :
    emptyLine (t ++ s) = .back := by
  obtain ⟨l, q, h1, _, h3⟩ := lead_stop h hs
  unfold emptyLine
  rw [bind_eq h1]
  exact newline_back (h3 hne)

theorem mlLine_line {pre t v nl s : Str} (h : MLine t v) (hne : ∃ a ∈ t, ¬ Space a) (hn : NewlineSeq nl s) :
    mlLine pre (pre ++ (t ++ (nl ++ s))) = .ok (v ++ ['\n']) s := by
  obtain ⟨l, _, h2, rfl⟩ := mline_forward h hn.at (newline_seq hn)
  unfold mlLine
  rw [bind_eq (cutErr_eq (alt_left (lit_append _ _))), alt_right (bind_back (emptyLine_line h hn.at hne)),
    bind_eq (repTill_of h2)]
  rfl

/-- A prefix of white space in front of a blank line ends before the newline. -/
theorem prefix_empty {pre sp nl s x : Str} (hpre : ∀ c ∈ pre, Space c) (hn : AtNewline (nl ++ s))
    (hx : sp ++ (nl ++ s) = pre ++ x) : ∃ sp', sp = pre ++ sp' ∧ x = sp' ++ (nl ++ s) := by
  rcases List.append_eq_append_iff.mp hx with ⟨a, h1, h2⟩ | ⟨a, h1, h2⟩
  · cases a with
    | nil => exact ⟨[], by simp [h1], by simpa using h2.symm⟩
    | cons a as =>
      obtain ⟨c, q, e, hc⟩ := hn
      rw [e] at h2
      have : a = c := (List.cons.inj h2).1.symm
      subst this
      exact absurd hc (space_not_newline (hpre a (by simp [h1])))
  · exact ⟨a, h1, h2⟩

theorem mlLine_empty {pre sp nl s : Str} (hpre : ∀ c ∈ pre, Space c) (h : ∀ c ∈ sp, Space c) (hn : NewlineSeq nl s) :
    mlLine pre (sp ++ (nl ++ s)) = .ok ['\n'] s := by
  unfold mlLine
  by_cases hp : ∃ x, sp ++ (nl ++ s) = pre ++ x
  · obtain ⟨x, hx⟩ := hp
    obtain ⟨sp', rfl, rfl⟩ := prefix_empty hpre hn.at hx
    rw [hx, bind_eq (cutErr_eq (alt_left (lit_append _ _)))]
    apply alt_left
    rw [bind_eq (emptyLine_eq (fun c hc => h c (List.mem_append_right _ hc)) hn)]
    rfl
  · have h1 : (lit pre <+> peek emptyLine) (sp ++ (nl ++ s)) = .ok () (sp ++ (nl ++ s)) := by
      rw [alt_right (lit_back.mpr fun r e => hp ⟨r, e⟩)]
      exact peek_eq (emptyLine_eq h hn)
    rw [bind_eq (cutErr_eq h1)]
    apply alt_left
    rw [bind_eq (emptyLine_eq h hn)]
    rfl

theorem bodyEnd_line {pre t v s : Str} (h : MLine t v) (hs : AtNewline s) : bodyEnd pre (pre ++ (t ++ s)) = .back := by
  obtain ⟨l, q, h1, h2⟩ := esc_stop h hs
  unfold bodyEnd
  rw [bind_eq (lit_append _ _), bind_eq h1]
  unfold peek
  rw [lit_back.mpr h2]

theorem bodyEnd_empty {pre sp nl s : Str} (hpre : ∀ c ∈ pre, Space c) (h : ∀ c ∈ sp, Space c) (hn : NewlineSeq nl s) :
    bodyEnd pre (sp ++ (nl ++ s)) = .back := by
  by_cases hp : ∃ x, sp ++ (nl ++ s) = pre ++ x
  · obtain ⟨x, hx⟩ := hp
    obtain ⟨sp', rfl, rfl⟩ := prefix_empty hpre hn.at hx
    rw [hx]
    have := bodyEnd_line (pre := pre) (MLine.spaces (sp := sp') (fun c hc => h c (List.mem_append_right _ hc)) .nil) hn.at
    simpa using this
  · exact bind_back (lit_back.mpr fun r e => hp ⟨r, e⟩)

theorem scan_line {pre t v nl s : Str} (hpre : ∀ c ∈ pre, Space c) (h : MLine t v) (hn : NewlineSeq nl s) :
    scanEnd (pre ++ (t ++ (nl ++ s))) = .back ∧ lineScan (pre ++ (t ++ (nl ++ s))) = .ok () s := by
  have hm := MLine.spaces hpre h
  obtain ⟨l, q, h1, h2, _⟩ := lead_stop hm hn.at
  have h3 := lineScan_eq hm hn
  rw [List.append_assoc] at h1 h3
  exact ⟨scanEnd_back h1 h2, h3⟩

/-- Nothing after the closing quotes matters. -/
theorem multi_forward {pre t r : Str} {ls : List Str} (hpre : ∀ c ∈ pre, Space c) (h : Multi pre t ls) :
    (∃ l w, Escapes w ∧ RepTill lineScan scanEnd (t ++ (tripleQuote ++ r)) l () (pre ++ (w ++ (tripleQuote ++ r)))) ∧
    RepTill (mlLine pre) (bodyEnd pre) (t ++ (tripleQuote ++ r)) (ls.map (· ++ ['\n'])) () (tripleQuote ++ r) := by
  have happ : ∀ {nl t : Str}, NewlineSeq nl t → NewlineSeq nl (t ++ (tripleQuote ++ r)) :=
    fun hn => hn.append fun _ q e => absurd (List.cons.inj e).1 (by decide)
  induction h with
  | @close w hw =>
    rw [List.append_assoc]
    refine ⟨⟨[], w, hw, .nil ?_⟩, .nil ?_⟩
    · obtain ⟨l, hl⟩ := hw.blanks ('"' :: '"' :: r)
      obtain ⟨l', hl'⟩ := spaces_blanks hpre hl
      refine peek_eq (r := r) (a := ()) ?_
      have hl'' : rep0 (wsEscape <+> unicodeSpace) (pre ++ (w ++ (tripleQuote ++ r))) = .ok l' (tripleQuote ++ r) := hl'
      rw [bind_eq hl'']
      exact lit_append _ _
    · obtain ⟨l, hl⟩ := hw.rep ('"' :: '"' :: r)
      have hl' : rep0 wsEscape (w ++ (tripleQuote ++ r)) = .ok l (tripleQuote ++ r) := hl
      unfold bodyEnd
      rw [bind_eq (lit_append _ _), bind_eq hl']
      exact peek_eq (lit_append _ _)
  | @empty sp nl t ls h1 h2 _ ih =>
    obtain ⟨⟨l, w, hw, g1⟩, g2⟩ := ih
    have hn := happ h2
    rw [List.append_assoc, List.append_assoc]
    have hs := scan_line (pre := sp) h1 .nil hn
    have hlen : (t ++ (tripleQuote ++ r)).length < (sp ++ (nl ++ (t ++ (tripleQuote ++ r)))).length := by
      obtain ⟨c, q, rfl, _⟩ := h2.head
      simp; omega
    exact ⟨⟨() :: l, w, hw, .cons hs.1 hs.2 hlen g1⟩,
      .cons (bodyEnd_empty hpre h1 hn) (mlLine_empty hpre h1 hn) hlen g2⟩
  | @line c x nl t ls h1 h2 h3 _ ih =>
    obtain ⟨⟨l, w, hw, g1⟩, g2⟩ := ih
    have hn := happ h3
    rw [List.append_assoc, List.append_assoc, List.append_assoc]
    have hs := scan_line hpre h1 hn
    have hlen : (t ++ (tripleQuote ++ r)).length < (pre ++ (c ++ (nl ++ (t ++ (tripleQuote ++ r))))).length := by
      obtain ⟨c, q, rfl, _⟩ := h3.head
      simp; omega
    exact ⟨⟨() :: l, w, hw, .cons hs.1 hs.2 hlen g1⟩,
      .cons (bodyEnd_line h1 hn.at) (mlLine_line h1 h2 hn) hlen g2⟩

theorem joinLines_eq (ls : List Str) : (ls.map (· ++ ['\n'])).flatten.dropLast = joinLines ls := by
  unfold joinLines
  induction ls with
  | nil => rfl
  | cons l ls ih =>
    cases ls with
    | nil => simp [List.intercalate]
    | cons m ls =>
      rw [List.map_cons, List.flatten_cons, List.dropLast_append_of_ne_nil (by simp), ih]
      simp [List.intercalate]

theorem mlPrefix_eq {pre t r : Str} {ls : List Str} (hpre : ∀ c ∈ pre, Space c) (h : Multi pre t ls) :
    mlPrefix (t ++ (tripleQuote ++ r)) = .ok pre (t ++ (tripleQuote ++ r)) := by
  obtain ⟨⟨l, w, hw, h1⟩, _⟩ := multi_forward (r := r) hpre h
  unfold mlPrefix
  refine cutErr_eq (peek_eq (r := r) ?_)
  have h1' := repTill_of h1
  unfold lineScan scanEnd at h1'
  rw [bind_eq h1']
  obtain ⟨l', hl, hf⟩ := hw.indent ('"' :: '"' :: r)
  obtain ⟨l'', hl', hf'⟩ := spaces_indent hpre hl
  have h2 : mlIndent (pre ++ (w ++ (tripleQuote ++ r))) = .ok pre (tripleQuote ++ r) := by
    have hl'' : rep0 indentItem (pre ++ (w ++ (tripleQuote ++ r))) = .ok l'' (tripleQuote ++ r) := hl'
    unfold indentItem at hl''
    unfold mlIndent
    rw [bind_eq hl'', hf', hf, List.append_nil]
    rfl
  rw [bind_eq h2, bind_eq (lit_append _ _)]
  rfl

theorem mlBody_eq {pre t r : Str} {ls : List Str} (hpre : ∀ c ∈ pre, Space c) (h : Multi pre t ls) :
    mlBody pre (t ++ (tripleQuote ++ r)) = .ok (joinLines ls) (tripleQuote ++ r) := by
  obtain ⟨_, h1⟩ := multi_forward (r := r) hpre h
  unfold mlBody
  apply cutErr_eq
  have h1' := repTill_of h1
  unfold bodyEnd at h1'
  rw [bind_eq h1', ← joinLines_eq]
  rfl

/-- A multi-line string is read as its lines. -/
theorem quotedString_multi {nl pre t r : Str} {ls : List Str} (h0 : NewlineSeq nl t) (hpre : ∀ c ∈ pre, Space c)
    (h : Multi pre t ls) :
    quotedString (tripleQuote ++ (nl ++ (t ++ (tripleQuote ++ r)))) = .ok (joinLines ls) r := by
  have hn : NewlineSeq nl (t ++ (tripleQuote ++ r)) :=
    h0.append fun _ q e => absurd (List.cons.inj e).1 (by decide)
  unfold quotedString
  rw [bind_eq (a := true) (r := t ++ (tripleQuote ++ r))]
  · simp only [if_true]
    rw [bind_eq (mlPrefix_eq hpre h), bind_eq (mlBody_eq hpre h), bind_eq (cutErr_eq (lit_append _ _))]
    rfl
  · apply alt_left
    rw [bind_eq (lit_append _ _), bind_eq (cutErr_eq (newline_seq hn))]
    rfl

/-! ### Backwards -/

theorem blankItem_inv {s r : Str} {u : Unit} (h : (wsEscape <+> unicodeSpace) s = .ok u r) :
    (∃ c, Space c ∧ s = c :: r) ∨ NoBlank r := by
  rcases alt_ok.mp h with h | ⟨_, h⟩
  · obtain ⟨w, _, _, _, h⟩ := wsEscape_inv h
    exact Or.inr h
  · obtain ⟨c, h⟩ := void_ok.mp h
    obtain ⟨rfl, hc⟩ := satisfy_ok.mp h
    exact Or.inl ⟨c, isUnicodeSpace_iff.mp hc, rfl⟩

theorem blanks_newline {s q : Str} {l : List Unit} (h : rep0 (wsEscape <+> unicodeSpace) s = .ok l q)
    (hq : AtNewline q) : ∃ sp, (∀ c ∈ sp, Space c) ∧ s = sp ++ q := by
  induction rep_of_rep0 h with
  | nil => exact ⟨[], by simp, rfl⟩
  | @cons s1 s2 s3 a as h1 _ ht ih =>
    obtain ⟨sp, h2, e⟩ := ih (rep0_of_rep ht) hq
    rcases blankItem_inv h1 with ⟨c, hc, e'⟩ | hb
    · exact ⟨c :: sp, by simpa [hc] using h2, by rw [e', e]; rfl⟩
    · exfalso
      obtain ⟨d, x, e', hd⟩ := hq
      rw [e] at hb
      cases sp with
      | nil => exact hb d x (by simpa using e') (Or.inr hd)
      | cons c sp => exact hb c _ rfl (Or.inl (h2 c List.mem_cons_self))

theorem emptyLine_inv {s r : Str} {u : Unit} (h : emptyLine s = .ok u r) :
    ∃ sp nl, (∀ c ∈ sp, Space c) ∧ NewlineSeq nl r ∧ s = sp ++ (nl ++ r) := by
  unfold emptyLine at h
  rw [bind_ok] at h
  obtain ⟨l, q, h1, h2⟩ := h
  obtain ⟨nl, rfl, hn⟩ := newline_seq_inv h2
  obtain ⟨sp, h3, h4⟩ := blanks_newline h1 hn.at
  exact ⟨sp, nl, h3, hn, h4⟩

theorem mlLine_inv {pre s r v : Str} (hpre : ∀ c ∈ pre, Space c) (h : mlLine pre s = .ok v r) :
    (v = ['\n'] ∧ ∃ sp nl, (∀ c ∈ sp, Space c) ∧ NewlineSeq nl r ∧ s = sp ++ (nl ++ r)) ∨
    ∃ t x nl, v = x ++ ['\n'] ∧ MLine t x ∧ (∃ a ∈ t, ¬ Space a) ∧ NewlineSeq nl r ∧ s = pre ++ (t ++ (nl ++ r)) := by
  unfold mlLine at h
  rw [bind_ok] at h
  obtain ⟨_, q, h1, h⟩ := h
  rw [cutErr_ok] at h1
  rcases alt_ok.mp h with h | ⟨hb, h⟩
  · rw [bind_ok] at h
    obtain ⟨_, q', h2, h⟩ := h
    obtain ⟨rfl, rfl⟩ := pure_ok.mp h
    obtain ⟨sp, nl, g1, g2, rfl⟩ := emptyLine_inv h2
    refine Or.inl ⟨rfl, ?_⟩
    rcases alt_ok.mp h1 with h1 | ⟨_, h1⟩
    · have := lit_ok.mp h1
      subst this
      refine ⟨pre ++ sp, nl, ?_, g2, by simp⟩
      intro c hc
      rcases List.mem_append.mp hc with hc | hc
      · exact hpre c hc
      · exact g1 c hc
    · obtain ⟨h1, _⟩ := peek_ok.mp h1
      exact ⟨sp, nl, g1, g2, h1.symm⟩
  · rw [bind_ok] at h
    obtain ⟨⟨l, u⟩, q', h2, h⟩ := h
    obtain ⟨rfl, rfl⟩ := pure_ok.mp h
    obtain ⟨t, nl, rfl, g2, g3⟩ := mline_inv (repTill_inv h2)
    have hb' : emptyLine (t ++ (nl ++ r)) = .back := by
      cases he : emptyLine (t ++ (nl ++ r)) with
      | ok u q => rw [bind_eq he] at hb; cases hb
      | back => rfl
      | cut => rw [bind_cut he] at hb; cases hb
      | crash => rw [bind_crash he] at hb; cases hb
    refine Or.inr ⟨t, _, nl, rfl, g3, ?_, g2, ?_⟩
    · refine Classical.byContradiction fun hn => ?_
      have : ∀ c ∈ t, Space c := fun c hc => Classical.byContradiction fun hs => hn ⟨c, hc, hs⟩
      rw [emptyLine_eq this g2] at hb'
      cases hb'
    · rcases alt_ok.mp h1 with h1 | ⟨_, h1⟩
      · exact lit_ok.mp h1
      · obtain ⟨e, q', h1⟩ := peek_ok.mp h1
        rw [← e, hb'] at h1
        cases h1

theorem escapes_inv {s q : Str} {l : List Unit} (h : rep0 wsEscape s = .ok l q) : ∃ w, Escapes w ∧ s = w ++ q := by
  induction rep_of_rep0 h with
  | nil => exact ⟨[], .nil, rfl⟩
  | @cons s1 s2 s3 a as h1 _ ht ih =>
    obtain ⟨w, hw, rfl⟩ := ih (rep0_of_rep ht)
    obtain ⟨b, g1, g2, rfl, g3⟩ := wsEscape_inv h1
    refine ⟨'\\' :: (b ++ w), .cons g1 g2 ?_ hw, by simp⟩
    rintro c x rfl
    exact g3 c _ rfl

theorem multi_inv {pre s r : Str} {l : List Str} {u : Unit} (hpre : ∀ c ∈ pre, Space c)
    (h : RepTill (mlLine pre) (bodyEnd pre) s l u r) :
    ∃ t ls q, s = t ++ r ∧ r = tripleQuote ++ q ∧ l = ls.map (· ++ ['\n']) ∧ Multi pre t ls := by
  induction h with
  | nil h =>
    unfold bodyEnd at h
    rw [bind_ok] at h
    obtain ⟨_, q, h1, h⟩ := h
    rw [bind_ok] at h
    obtain ⟨_, q', h2, h⟩ := h
    obtain ⟨rfl, q'', h3⟩ := peek_ok.mp h
    obtain ⟨w, hw, rfl⟩ := escapes_inv h2
    exact ⟨pre ++ w, [], q'', by rw [lit_ok.mp h1]; simp, lit_ok.mp h3, rfl, .close hw⟩
  | @cons s q r a as b he h hl ht ih =>
    obtain ⟨t, ls, q', rfl, e2, rfl, hm⟩ := ih
    have hcut : ∀ {nl : Str}, NewlineSeq nl (t ++ r) → NewlineSeq nl t := by
      rintro nl (rfl | ⟨c, rfl, hc, h⟩)
      · exact Or.inl rfl
      · refine Or.inr ⟨c, rfl, hc, ?_⟩
        rintro e q rfl
        exact h e _ rfl
    rcases mlLine_inv hpre h with ⟨rfl, sp, nl, g1, g2, rfl⟩ | ⟨c, x, nl, rfl, g1, g2, g3, rfl⟩
    · exact ⟨sp ++ (nl ++ t), [] :: ls, q', by simp, e2, rfl, .empty g1 (hcut g2) hm⟩
    · exact ⟨pre ++ (c ++ (nl ++ t)), x :: ls, q', by simp, e2, rfl, .line g1 g2 (hcut g3) hm⟩

theorem mlIndent_spaces {s q p : Str} (h : mlIndent s = .ok p q) : ∀ c ∈ p, Space c := by
  unfold mlIndent at h
  rw [bind_ok] at h
  obtain ⟨l, q', h1, h⟩ := h
  obtain ⟨rfl, rfl⟩ := pure_ok.mp h
  have hR := rep_of_rep0 h1
  clear h h1
  induction hR with
  | nil => simp
  | @cons s1 s2 s3 a as h1 _ ht ih =>
    intro c hc
    rw [List.flatten_cons, List.mem_append] at hc
    rcases hc with hc | hc
    · rcases alt_ok.mp h1 with h1 | ⟨_, h1⟩
      · rw [bind_ok] at h1
        obtain ⟨_, _, _, h1⟩ := h1
        obtain ⟨rfl, _⟩ := pure_ok.mp h1
        cases hc
      · obtain ⟨e, u, h2⟩ := takeP_ok.mp h1
        obtain ⟨d, h2⟩ := void_ok.mp h2
        obtain ⟨rfl, hd⟩ := satisfy_ok.mp h2
        rw [e] at hc
        have : taken (d :: s2) s2 = [d] := by
          unfold taken; simp
        rw [this, List.mem_singleton] at hc
        rw [hc]
        exact isUnicodeSpace_iff.mp hd
    · exact ih c hc

/-- What quoted strings look like. -/
theorem quotedString_inv {s r v : Str} (h : quotedString s = .ok v r) :
    (∃ t, Quoted t v ∧ s = '"' :: (t ++ '"' :: r)) ∨
    ∃ nl pre t ls, NewlineSeq nl t ∧ (∀ c ∈ pre, Space c) ∧ Multi pre t ls ∧ v = joinLines ls ∧
      s = tripleQuote ++ (nl ++ (t ++ (tripleQuote ++ r))) := by
  unfold quotedString at h
  rw [bind_ok] at h
  obtain ⟨b, q, h1, h⟩ := h
  rcases alt_ok.mp h1 with h1 | ⟨_, h1⟩
  · right
    rw [bind_ok] at h1
    obtain ⟨_, q1, h2, h1⟩ := h1
    rw [bind_ok] at h1
    obtain ⟨_, q2, h3, h1⟩ := h1
    obtain ⟨rfl, rfl⟩ := pure_ok.mp h1
    rw [cutErr_ok] at h3
    simp only [if_true] at h
    rw [bind_ok] at h
    obtain ⟨pre, q3, h4, h⟩ := h
    rw [bind_ok] at h
    obtain ⟨body, q4, h5, h⟩ := h
    rw [bind_ok] at h
    obtain ⟨_, q5, h6, h⟩ := h
    obtain ⟨rfl, rfl⟩ := pure_ok.mp h
    unfold mlPrefix at h4
    rw [cutErr_ok] at h4
    obtain ⟨rfl, x, h4⟩ := peek_ok.mp h4
    rw [bind_ok] at h4
    obtain ⟨_, _, _, h4⟩ := h4
    rw [bind_ok] at h4
    obtain ⟨p, _, h7, h4⟩ := h4
    rw [bind_ok] at h4
    obtain ⟨_, _, _, h4⟩ := h4
    obtain ⟨rfl, _⟩ := pure_ok.mp h4
    have hpre := mlIndent_spaces h7
    unfold mlBody at h5
    rw [cutErr_ok, bind_ok] at h5
    obtain ⟨⟨l, u⟩, q6, h8, h5⟩ := h5
    obtain ⟨rfl, rfl⟩ := pure_ok.mp h5
    obtain ⟨t, ls, q7, rfl, e2, rfl, hm⟩ := multi_inv hpre (repTill_inv h8)
    rw [cutErr_ok] at h6
    have e3 := lit_ok.mp h6
    obtain ⟨nl, e4, hn⟩ := newline_seq_inv h3
    refine ⟨nl, pre, t, ls, ?_, hpre, hm, joinLines_eq ls, ?_⟩
    · rcases hn with rfl | ⟨c, rfl, hc, h⟩
      · exact Or.inl rfl
      · refine Or.inr ⟨c, rfl, hc, ?_⟩
        rintro e q rfl
        exact h e _ rfl
    · rw [lit_ok.mp h2, e4, e3]
  · left
    rw [bind_ok] at h1
    obtain ⟨_, q1, h2, h1⟩ := h1
    obtain ⟨rfl, rfl⟩ := pure_ok.mp h1
    simp only [Bool.false_eq_true, if_false] at h
    rw [bind_ok] at h
    obtain ⟨body, q4, h5, h⟩ := h
    rw [bind_ok] at h
    obtain ⟨_, q5, h6, h⟩ := h
    obtain ⟨rfl, rfl⟩ := pure_ok.mp h
    obtain ⟨t, q, rfl, e, hq⟩ := slBody_inv h5
    rw [cutErr_ok] at h6
    refine ⟨t, hq, ?_⟩
    rw [lit_ok.mp h2, lit_ok.mp h6]
    rfl

end Kdl
