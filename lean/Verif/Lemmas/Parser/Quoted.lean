import Verif.Lemmas.Parser.Ident
/-
Single-line quoted strings.
-/

namespace Kdl
open Spec

/-! ### White space escapes -/

theorem blank_ok {c : Char} {q : Str} (h : Blank c) : ∃ r, (unicodeSpace <+> newline) (c :: q) = .ok () r := by
  rcases h with h | h
  · exact ⟨q, alt_left (unicodeSpace_eq h)⟩
  · by_cases h1 : Space c
    · exact ⟨q, alt_left (unicodeSpace_eq h1)⟩
    · obtain ⟨r, hr⟩ := newline_ok_of (q := q) h
      refine ⟨r, ?_⟩
      rw [alt_right (unicodeSpace_back (by rintro _ _ ⟨⟩; exact h1))]
      exact hr

theorem blank_back {s : Str} (h : NoBlank s) : (unicodeSpace <+> newline) s = .back := by
  rw [alt_right (unicodeSpace_back fun c q e hs => h c q e (Or.inl hs))]
  exact newline_back fun c q e hs => h c q e (Or.inr hs)

theorem space_not_newline {c : Char} (h : Space c) : ¬ Newline c := by
  unfold Space spaceCodes at h
  unfold Newline newlineCodes
  simp only [List.mem_cons, List.not_mem_nil, or_false] at *
  omega

/-- Runs of white space and newlines. -/
theorem rep0_blank {t : Str} (ht : NoBlank t) (w : Str) (hw : ∀ c ∈ w, Blank c) :
    ∃ l, rep0 (unicodeSpace <+> newline) (w ++ t) = .ok l t := by
  induction hn : w.length using Nat.strongRecOn generalizing w with
  | ind n ih =>
    cases w with
    | nil => exact ⟨[], rep0_nil (blank_back ht)⟩
    | cons c w =>
      have hc := hw c (List.mem_cons_self ..)
      have hw' : ∀ x ∈ w, Blank x := fun x hx => hw x (List.mem_cons_of_mem _ hx)
      have one : ∀ {q : Str}, (unicodeSpace <+> newline) (c :: (w ++ t)) = .ok () q → q = w ++ t →
          ∃ l, rep0 (unicodeSpace <+> newline) (c :: w ++ t) = .ok l t := by
        rintro q h1 rfl
        obtain ⟨l, hl⟩ := ih w.length (by simp at hn; omega) w hw' rfl
        exact ⟨() :: l, rep0_cons h1 (by simp) hl⟩
      by_cases hs : Space c
      · exact one (alt_left (unicodeSpace_eq hs)) rfl
      · have hnl : Newline c := hc.resolve_left hs
        have hb : unicodeSpace (c :: (w ++ t)) = .back := unicodeSpace_back (by rintro _ _ ⟨⟩; exact hs)
        by_cases hcr : c = '\r' ∧ ∃ w', w = '\n' :: w'
        · obtain ⟨rfl, w', rfl⟩ := hcr
          obtain ⟨l, hl⟩ := ih w'.length (by simp at hn; omega) w'
            (fun x hx => hw' x (List.mem_cons_of_mem _ hx)) rfl
          refine ⟨() :: l, rep0_cons (r := w' ++ t) ?_ (by simp; omega) hl⟩
          show (unicodeSpace <+> newline) ('\r' :: ('\n' :: w' ++ t)) = _
          rw [alt_right hb]
          exact newline_crlf _
        · refine one (q := w ++ t) ?_ rfl
          rw [alt_right hb]
          apply newline_cons hnl
          by_cases h : c = '\r'
          · right
            rintro t' e
            cases w with
            | nil =>
              rw [List.nil_append] at e
              exact ht _ _ e (Or.inr (by decide))
            | cons d w' =>
              cases e
              exact hcr ⟨h, _, rfl⟩
          · exact Or.inl h

theorem wsEscape_eq {w t : Str} (h1 : w ≠ []) (h2 : ∀ c ∈ w, Blank c) (h3 : NoBlank t) :
    wsEscape ('\\' :: (w ++ t)) = .ok () t := by
  unfold wsEscape
  rw [bind_eq (lit_one _ _)]
  obtain ⟨l, hl⟩ := rep0_blank h3 w h2
  cases w with
  | nil => exact absurd rfl h1
  | cons c w =>
    obtain ⟨r, hr⟩ := blank_ok (q := w ++ t) (h2 c (List.mem_cons_self ..))
    rw [rep0_unfold, List.cons_append, hr] at hl
    simp only at hl
    split at hl
    · split at hl
      · cases hl
        rename_i h
        exact void_eq (rep1_eq hr h)
      all_goals cases hl
    · cases hl

theorem wsEscape_back {q : Str} (h : NoBlank q) : wsEscape ('\\' :: q) = .back := by
  unfold wsEscape
  rw [bind_eq (lit_one _ _)]
  exact void_back (rep1_back (blank_back h))

theorem wsEscape_back' {s : Str} (h : ∀ q, s ≠ '\\' :: q) : wsEscape s = .back :=
  bind_back (lit_back.mpr h)

theorem blank_inv {s r : Str} {u : Unit} (h : (unicodeSpace <+> newline) s = .ok u r) :
    ∃ w, w ≠ [] ∧ (∀ c ∈ w, Blank c) ∧ s = w ++ r := by
  rcases alt_ok.mp h with h | ⟨_, h⟩
  · obtain ⟨c, h⟩ := void_ok.mp h
    obtain ⟨rfl, h'⟩ := satisfy_ok.mp h
    exact ⟨[c], by simp, by simp [Blank, isUnicodeSpace_iff.mp h'], rfl⟩
  · obtain ⟨c, t, rfl, h1, h2⟩ := newline_inv h
    have hc : Blank c := Or.inr (newlineStart_iff.mp h1)
    rcases h2 with rfl | ⟨rfl, rfl⟩
    · exact ⟨[c], by simp, by simpa using hc, rfl⟩
    · refine ⟨['\r', '\n'], by simp, ?_, rfl⟩
      intro x hx
      simp only [List.mem_cons, List.not_mem_nil, or_false] at hx
      rcases hx with rfl | rfl
      · exact hc
      · exact Or.inr (by decide)

theorem noBlank_of_back {s : Str} (h : (unicodeSpace <+> newline) s = .back) : NoBlank s := by
  rintro c q rfl hb
  obtain ⟨r, hr⟩ := blank_ok (q := q) hb
  rw [hr] at h; cases h

theorem rep0_blank_inv {s r : Str} {l : List Unit} (h : rep0 (unicodeSpace <+> newline) s = .ok l r) :
    ∃ w, (∀ c ∈ w, Blank c) ∧ s = w ++ r ∧ NoBlank r := by
  induction rep_of_rep0 h with
  | nil hb => exact ⟨[], by simp, rfl, noBlank_of_back hb⟩
  | cons h1 _ ht ih =>
    obtain ⟨w, _, hw, rfl⟩ := blank_inv h1
    obtain ⟨w', hw', rfl, hn⟩ := ih (rep0_of_rep ht)
    refine ⟨w ++ w', ?_, by simp, hn⟩
    intro x hx
    rcases List.mem_append.mp hx with hx | hx
    · exact hw x hx
    · exact hw' x hx

theorem wsEscape_inv {s r : Str} {u : Unit} (h : wsEscape s = .ok u r) :
    ∃ w, w ≠ [] ∧ (∀ c ∈ w, Blank c) ∧ s = '\\' :: (w ++ r) ∧ NoBlank r := by
  unfold wsEscape at h
  rw [bind_ok] at h
  obtain ⟨_, q, h1, h⟩ := h
  obtain rfl := lit_ok.mp h1
  obtain ⟨l, h⟩ := void_ok.mp h
  obtain ⟨a, q', as, h2, h3, _⟩ := rep1_ok.mp h
  obtain ⟨w, hne, hw, rfl⟩ := blank_inv h2
  obtain ⟨w', hw', rfl, hn⟩ := rep0_blank_inv h3
  refine ⟨w ++ w', by simp [hne], ?_, by simp, hn⟩
  intro x hx
  rcases List.mem_append.mp hx with hx | hx
  · exact hw x hx
  · exact hw' x hx

/-! ### Characters of a string -/

theorem escape_not_blank {e c : Char} (h : (e, c) ∈ escapes) : ¬ Blank e ∧ e ≠ 'u' := by
  have : ∀ p ∈ escapes, ¬ Blank p.1 ∧ p.1 ≠ 'u' := by decide
  exact this _ h

theorem escapedChar_simple {e c : Char} {t : Str} (h : (e, c) ∈ escapes) :
    escapedChar ('\\' :: e :: t) = .ok c t := by
  simp only [escapes, List.mem_cons, List.not_mem_nil, or_false, Prod.mk.injEq] at h
  rcases h with ⟨rfl, rfl⟩ | ⟨rfl, rfl⟩ | ⟨rfl, rfl⟩ | ⟨rfl, rfl⟩ | ⟨rfl, rfl⟩ | ⟨rfl, rfl⟩ | ⟨rfl, rfl⟩ |
    ⟨rfl, rfl⟩ <;> rfl

theorem takeWhile1to6_eq {hx t : Str} (h1 : hx ≠ []) (h2 : hx.length ≤ 6) (h3 : ∀ x ∈ hx, isHexDigit x = true) :
    takeWhile1to6 isHexDigit (hx ++ '}' :: t) = .ok hx ('}' :: t) := by
  have e : ((hx ++ '}' :: t).take 6).takeWhile isHexDigit = hx := by
    rw [List.take_append, List.take_of_length_le h2, List.takeWhile_append_of_pos h3]
    cases hn : 6 - hx.length with
    | zero => simp
    | succ n => simp [List.takeWhile_cons, show isHexDigit '}' = false by decide]
  unfold takeWhile1to6
  rw [e]
  cases hx with
  | nil => exact absurd rfl h1
  | cons a b => simp

theorem dropUnderscores_hex {hx : Str} (h : ∀ x ∈ hx, isHexDigit x = true) : dropUnderscores hx = hx := by
  unfold dropUnderscores
  rw [List.filter_eq_self]
  intro x hx'
  have := h x hx'
  have hne : x ≠ '_' := by rintro rfl; rw [isHexDigit_us] at this; cases this
  simpa using hne

theorem hexVal_eq {hx : Str} (h : ∀ x ∈ hx, isHexDigit x = true) : digitsVal 16 hx = hexVal hx := by
  have := digitsVal_litVal (radix := 16) (ds := hx) (fun x hx => Or.inr (h x hx))
  rw [dropUnderscores_hex h] at this
  exact this

theorem charFromU32_eq {c : Char} : charFromU32 c.toNat = some c := by
  unfold charFromU32
  have : c.toNat.isValidChar := c.valid
  rw [if_pos this, Char.ofNat_toNat]

theorem charFromU32_inv {n : Nat} {c : Char} (h : charFromU32 n = some c) : n = c.toNat := by
  unfold charFromU32 at h
  split at h
  · rename_i hv
    cases h
    unfold Char.ofNat
    rw [dif_pos hv]
    rfl
  · cases h

theorem escapedChar_unicode {hx t : Str} {c : Char} (h1 : hx ≠ []) (h2 : hx.length ≤ 6)
    (h3 : ∀ x ∈ hx, IsDigit 16 x) (h4 : hexVal hx = c.toNat) :
    escapedChar ('\\' :: 'u' :: '{' :: (hx ++ '}' :: t)) = .ok c t := by
  have h3' : ∀ x ∈ hx, isHexDigit x = true := fun x h => isDigit_iff.2.1.mp (h3 x h)
  unfold escapedChar
  rw [bind_eq (lit_one _ _), alt_right (by rfl)]
  refine mapOpt_eq (a := hx) ?_ ?_
  · rw [bind_eq (a := ()) (r := hx ++ '}' :: t) (by rfl), bind_eq (cutErr_eq (takeWhile1to6_eq h1 h2 h3')),
      bind_eq (cutErr_eq (lit_one _ _))]
    rfl
  · rw [hexVal_eq h3', h4]
    exact charFromU32_eq

theorem escapedChar_back {s : Str} (h : ∀ q, s ≠ '\\' :: q) : escapedChar s = .back :=
  bind_back (lit_back.mpr h)

theorem stringChar_plain {c : Char} {t : Str} (h1 : c ≠ '\\') (h2 : c ≠ '"') (h4 : ¬ Disallowed c) :
    stringChar (c :: t) = .ok c t := by
  unfold stringChar
  rw [alt_right (escapedChar_back (by rintro q ⟨⟩; exact h1 rfl)),
    bind_eq (notP_eq (disallowedUnicode_back (by rintro _ _ ⟨⟩; exact h4)))]
  apply satisfy_eq
  simp [h1, h2]

theorem takeWhile1to6_inv {f : Char → Bool} {s t r : Str} (h : takeWhile1to6 f s = .ok t r) :
    t ≠ [] ∧ t.length ≤ 6 ∧ (∀ x ∈ t, f x = true) ∧ s = t ++ r := by
  obtain ⟨t', h1, h2⟩ := Strict.takeWhile1to6 f _ _ _ h
  unfold takeWhile1to6 at h
  split at h
  · cases h
  · rename_i u hne
    cases h
    refine ⟨fun e => hne e, ?_, fun x hx => mem_takeWhile hx, ?_⟩
    · exact Nat.le_trans (List.takeWhile_sublist _).length_le (by simp; omega)
    · have := takeWhile_prefix_take f 6 s
      exact this

theorem escapedChar_inv {s r : Str} {c : Char} (h : escapedChar s = .ok c r) :
    (∃ e, (e, c) ∈ escapes ∧ s = '\\' :: e :: r) ∨
    (∃ hx, hx ≠ [] ∧ hx.length ≤ 6 ∧ (∀ x ∈ hx, IsDigit 16 x) ∧ hexVal hx = c.toNat ∧
      s = '\\' :: 'u' :: '{' :: (hx ++ '}' :: r)) := by
  unfold escapedChar at h
  rw [bind_ok] at h
  obtain ⟨_, q, h1, h⟩ := h
  obtain rfl := lit_ok.mp h1
  rcases alt_ok.mp h with h | ⟨_, h⟩
  · left
    simp only [alt_ok, bind_ok, lit_ok, pure_ok] at h
    have mk : ∀ {e d : Char} {u : Unit} {q' : Str}, (e, d) ∈ escapes → q = [e] ++ q' → c = d ∧ r = q' →
        ∃ e, (e, c) ∈ escapes ∧ ['\\'] ++ q = '\\' :: e :: r := by
      rintro e d u q' hm rfl ⟨rfl, rfl⟩
      exact ⟨e, hm, rfl⟩
    rcases h with ⟨_, _, h2, h3⟩ | ⟨_, ⟨_, _, h2, h3⟩ | ⟨_, ⟨_, _, h2, h3⟩ | ⟨_, ⟨_, _, h2, h3⟩ |
      ⟨_, ⟨_, _, h2, h3⟩ | ⟨_, ⟨_, _, h2, h3⟩ | ⟨_, ⟨_, _, h2, h3⟩ | ⟨_, _, _, h2, h3⟩⟩⟩⟩⟩⟩⟩
    all_goals exact mk (u := ()) (by decide) h2 h3
  · right
    obtain ⟨hx, h, hc⟩ := mapOpt_ok.mp h
    simp only [bind_ok, lit_ok, cutErr_ok, pure_ok] at h
    obtain ⟨_, q1, rfl, hx', q2, h2, _, q3, h3, rfl, rfl⟩ := h
    subst h3
    obtain ⟨g1, g2, g3, rfl⟩ := takeWhile1to6_inv h2
    refine ⟨_, g1, g2, fun x hx => isDigit_iff.2.1.mpr (g3 x hx), ?_, by simp⟩
    rw [← hexVal_eq g3]
    exact charFromU32_inv hc

theorem stringChar_inv {s r : Str} {c : Char} (h : stringChar s = .ok c r) :
    (∃ e, (e, c) ∈ escapes ∧ s = '\\' :: e :: r) ∨
    (∃ hx, hx ≠ [] ∧ hx.length ≤ 6 ∧ (∀ x ∈ hx, IsDigit 16 x) ∧ hexVal hx = c.toNat ∧
      s = '\\' :: 'u' :: '{' :: (hx ++ '}' :: r)) ∨
    (s = c :: r ∧ c ≠ '\\' ∧ c ≠ '"' ∧ ¬ Disallowed c) := by
  unfold stringChar at h
  rcases alt_ok.mp h with h | ⟨_, h⟩
  · rcases escapedChar_inv h with h | h
    · exact Or.inl h
    · exact Or.inr (Or.inl h)
  · rw [bind_ok] at h
    obtain ⟨_, q, h1, h'⟩ := h
    obtain ⟨e, h1⟩ := notP_ok.mp h1
    subst e
    obtain ⟨rfl, h2⟩ := satisfy_ok.mp h'
    refine Or.inr (Or.inr ⟨rfl, ?_, ?_, ?_⟩)
    · rintro rfl; exact absurd h2 (by decide)
    · rintro rfl; exact absurd h2 (by decide)
    · intro hd
      obtain ⟨r', hr⟩ := disallowedUnicode_ok_of (q := r) hd
      rw [hr] at h1; cases h1

/-! ### The body of a single-line string -/

/-- One item of a single-line string. -/
def slItem : P (Option Char) := do
  cutErr (notP newline)
  (do wsEscape; return none) <+> (do let c ← stringChar; return some c)

theorem slItem_guard {c : Char} {t : Str} (h : ¬ Newline c) : cutErr (notP newline) (c :: t) = .ok () (c :: t) :=
  cutErr_eq (notP_eq (newline_back (by rintro _ _ ⟨⟩; exact h)))

theorem slItem_char {c d : Char} {t r : Str} (h : ¬ Newline c) (h1 : wsEscape (c :: t) = .back)
    (h2 : stringChar (c :: t) = .ok d r) : slItem (c :: t) = .ok (some d) r := by
  unfold slItem
  rw [bind_eq (slItem_guard h), alt_right (bind_back h1), bind_eq h2]
  rfl

theorem quote_peek_back {c : Char} {t : Str} (h : c ≠ '"') : peek (lit ['"']) (c :: t) = .back := by
  unfold peek
  rw [lit_cons_ne (Ne.symm h)]

theorem quoted_forward {t v r : Str} (h : Quoted t v) :
    ∃ l, RepTill slItem (peek (lit ['"'])) (t ++ '"' :: r) l () ('"' :: r) ∧ l.filterMap id = v := by
  induction h with
  | nil => exact ⟨[], .nil (peek_eq (lit_one _ _)), rfl⟩
  | @plain c t v h1 h2 h3 h4 _ ih =>
    obtain ⟨l, hl, rfl⟩ := ih
    refine ⟨some c :: l, .cons (quote_peek_back h2)
      (slItem_char h3 (wsEscape_back' (by rintro q ⟨⟩; exact h1 rfl)) (stringChar_plain h1 h2 h4))
      (by simp) hl, by simp⟩
  | @escape e c t v h1 _ ih =>
    obtain ⟨l, hl, rfl⟩ := ih
    refine ⟨some c :: l, .cons (quote_peek_back (by decide))
      (slItem_char (by decide) (wsEscape_back (by rintro c' q ⟨⟩; exact (escape_not_blank h1).1))
        (alt_left (escapedChar_simple h1))) (by simp; omega) hl, by simp⟩
  | @unicode hx t v c h1 h2 h3 h4 _ ih =>
    obtain ⟨l, hl, rfl⟩ := ih
    have e : '\\' :: 'u' :: '{' :: (hx ++ '}' :: t) ++ '"' :: r =
        '\\' :: 'u' :: '{' :: (hx ++ '}' :: (t ++ '"' :: r)) := by simp
    rw [e]
    refine ⟨some c :: l, .cons (quote_peek_back (by decide))
      (slItem_char (by decide) (wsEscape_back (by rintro c' q ⟨⟩; decide))
        (alt_left (escapedChar_unicode h1 h2 h3 h4))) (by simp; omega) hl, by simp⟩
  | @space w t v h1 h2 h3 _ ih =>
    obtain ⟨l, hl, rfl⟩ := ih
    have h3' : NoBlank (t ++ '"' :: r) := by
      cases t with
      | nil => rintro c q ⟨⟩; decide
      | cons c t => rintro c' q ⟨⟩; exact h3 _ _ rfl
    have e : '\\' :: (w ++ t) ++ '"' :: r = '\\' :: (w ++ (t ++ '"' :: r)) := by simp
    rw [e]
    refine ⟨none :: l, .cons (quote_peek_back (by decide)) ?_ (by simp; omega) hl, by simp⟩
    unfold slItem
    rw [bind_eq (slItem_guard (by decide))]
    exact alt_left (by rw [bind_eq (wsEscape_eq h1 h2 h3')]; rfl)

theorem quoted_inv {s r : Str} {l : List (Option Char)} {u : Unit}
    (h : RepTill slItem (peek (lit ['"'])) s l u r) :
    ∃ t q, s = t ++ r ∧ r = '"' :: q ∧ Quoted t (l.filterMap id) := by
  induction h with
  | nil h =>
    obtain ⟨rfl, q, h⟩ := peek_ok.mp h
    exact ⟨[], q, rfl, lit_ok.mp h, .nil⟩
  | @cons s q r a as b he h hl ht ih =>
    obtain ⟨t, q', e1, e2, hq⟩ := ih
    subst e1
    unfold slItem at h
    rw [bind_ok] at h
    obtain ⟨_, s', h1, h⟩ := h
    rw [cutErr_ok, notP_ok] at h1
    obtain ⟨rfl, hnl⟩ := h1
    rcases alt_ok.mp h with h | ⟨hb, h⟩
    · rw [bind_ok] at h
      obtain ⟨_, q1, h2, h⟩ := h
      obtain ⟨rfl, hh⟩ := pure_ok.mp h
      subst hh
      obtain ⟨w, g1, g2, rfl, g3⟩ := wsEscape_inv h2
      refine ⟨'\\' :: (w ++ t), q', by simp, e2, ?_⟩
      refine .space g1 g2 ?_ (by simpa using hq)
      rintro c x rfl
      exact g3 c _ rfl
    · rw [bind_ok] at h
      obtain ⟨c, q1, h2, h⟩ := h
      obtain ⟨rfl, hh⟩ := pure_ok.mp h
      subst hh
      have e3 : (some c :: as).filterMap id = c :: as.filterMap id := by simp
      rw [e3]
      rcases stringChar_inv h2 with ⟨e, g1, rfl⟩ | ⟨hx, g1, g2, g3, g4, rfl⟩ | ⟨rfl, g1, g2, g3⟩
      · exact ⟨'\\' :: e :: t, q', by simp, e2, .escape g1 hq⟩
      · exact ⟨'\\' :: 'u' :: '{' :: (hx ++ '}' :: t), q', by simp, e2, .unicode g1 g2 g3 g4 hq⟩
      · refine ⟨c :: t, q', by simp, e2, .plain g1 g2 ?_ g3 hq⟩
        intro hn
        obtain ⟨r', hr⟩ := newline_ok_of (q := t ++ r) hn
        rw [hr] at hnl; cases hnl

theorem slBody_eq {t v r : Str} (h : Quoted t v) : slBody (t ++ '"' :: r) = .ok v ('"' :: r) := by
  obtain ⟨l, h1, rfl⟩ := quoted_forward (r := r) h
  unfold slBody
  apply cutErr_eq
  have := repTill_of h1
  unfold slItem at this
  rw [bind_eq this]
  rfl

theorem slBody_inv {s r v : Str} (h : slBody s = .ok v r) :
    ∃ t q, s = t ++ r ∧ r = '"' :: q ∧ Quoted t v := by
  unfold slBody at h
  rw [cutErr_ok, bind_ok] at h
  obtain ⟨⟨l, u⟩, q, h1, h⟩ := h
  obtain ⟨rfl, rfl⟩ := pure_ok.mp h
  exact quoted_inv (repTill_inv h1)

/-- The first characters of a single-line quoted string are not three quotes. -/
theorem quoted_not_triple {t v r : Str} (h : Quoted t v) (hr : ∀ q, r ≠ '"' :: q) :
    lit tripleQuote ('"' :: (t ++ '"' :: r)) = .back := by
  unfold tripleQuote
  rw [lit_back]
  rintro q e
  simp only [List.cons_append, List.nil_append, List.cons.injEq, true_and] at e
  cases h with
  | nil =>
    simp only [List.nil_append, List.cons.injEq, true_and] at e
    exact hr _ e
  | plain h1 h2 h3 h4 h => exact h2 (List.cons.inj e).1
  | escape => exact absurd (List.cons.inj e).1 (by decide)
  | unicode => exact absurd (List.cons.inj e).1 (by decide)
  | space => exact absurd (List.cons.inj e).1 (by decide)

theorem quotedString_eq {t v r : Str} (h : Quoted t v) (hr : ∀ q, r ≠ '"' :: q) :
    quotedString ('"' :: (t ++ '"' :: r)) = .ok v r := by
  unfold quotedString
  rw [bind_eq (a := false) (r := t ++ '"' :: r)]
  · simp only [Bool.false_eq_true, if_false]
    rw [bind_eq (slBody_eq h), bind_eq (cutErr_eq (lit_one _ _))]
    rfl
  · rw [alt_right (bind_back (quoted_not_triple h hr)), bind_eq (lit_one _ _)]
    rfl

theorem Ends.noQuote {r : Str} (h : Ends r) : ∀ q, r ≠ '"' :: q := by
  rintro q rfl
  obtain ⟨u, q', h⟩ := h
  unfold valueTerminator at h
  simp only [alt_ok, eof_ok, lit_ok, List.cons_append, List.nil_append] at h
  rcases h with ⟨h, _⟩ | ⟨_, h | ⟨_, h | ⟨_, h | ⟨_, h | ⟨_, h | ⟨_, h⟩⟩⟩⟩⟩⟩
  · cases h
  · exact absurd (List.cons.inj h).1 (by decide)
  · exact absurd (List.cons.inj h).1 (by decide)
  · exact absurd (List.cons.inj h).1 (by decide)
  · exact absurd (List.cons.inj h).1 (by decide)
  · obtain ⟨c', q', h1, h2⟩ := nodeSpace_head h
    cases h1
    rcases h2 with h2 | h2 | h2 <;> exact absurd h2 (by decide)
  · obtain ⟨c', q', h1, h2⟩ := nodeTerminator_head h
    cases h1
    rcases h2 with h2 | h2 | ⟨h2, _⟩
    · exact absurd h2 (by decide)
    · rw [newlineStart_iff] at h2; exact absurd h2 (by decide)
    · exact absurd h2 (by decide)

/-! ### Strings -/

theorem stringP_bare {w r : Str} (h : Bare w) (hr : Ends r) : stringP (w ++ r) = .ok w r := by
  unfold stringP
  apply alt_left
  rw [bind_eq (identString_eq h hr.stop), bind_eq hr.check]
  rfl

theorem rawString_back {s : Str} (h : ∀ q, s ≠ '#' :: q) : rawString s = .back := by
  unfold rawString
  exact bind_back (takeP_back (rep1_back (lit_back.mpr h)))

theorem stringP_quoted {t v r : Str} (h : Quoted t v) (hr : Ends r) :
    stringP ('"' :: (t ++ '"' :: r)) = .ok v r := by
  unfold stringP
  rw [alt_right (bind_back (identString_back (by rintro _ _ ⟨⟩; decide))),
    alt_right (bind_back (rawString_back (by rintro q ⟨⟩))),
    bind_eq (quotedString_eq h hr.noQuote), bind_eq hr.check]
  rfl

end Kdl
