import Verif.Lemmas.Parser.Num
import Verif.Spec.Strings
/-
Unquoted strings.
-/

namespace Kdl
open Spec

/-! ### Character classes -/

theorem isUnicodeSpace_iff {c : Char} : isUnicodeSpace c = true ↔ Space c := by
  simp only [isUnicodeSpace, Space, spaceCodes, Bool.or_eq_true, beq_iff_eq, Bool.and_eq_true,
    decide_eq_true_eq, List.mem_cons, List.not_mem_nil, or_false]
  omega

theorem isNewlineChar_iff {c : Char} : isNewlineChar c = true ↔ Newline c := by
  simp only [isNewlineChar, Newline, newlineCodes, Bool.or_eq_true, beq_iff_eq,
    List.mem_cons, List.not_mem_nil, or_false]
  omega

theorem isDisallowedUnicode_iff {c : Char} : isDisallowedUnicode c = true ↔ Disallowed c := by
  simp only [isDisallowedUnicode, Disallowed, disallowedCodes, Bool.or_eq_true, beq_iff_eq,
    Bool.and_eq_true, decide_eq_true_eq, List.mem_cons, List.not_mem_nil, or_false]
  omega

theorem isDisallowedIdentChar_iff {c : Char} : isDisallowedIdentChar c = false ↔ IdentChar c := by
  have hp : c ∈ punctuation ↔ (disallowedIdentChars.contains c || c == '=') = true := by
    simp [punctuation, disallowedIdentChars, or_assoc]
  unfold IdentChar
  rw [← isUnicodeSpace_iff, ← isNewlineChar_iff, ← isDisallowedUnicode_iff, hp]
  unfold isDisallowedIdentChar
  cases disallowedIdentChars.contains c <;> cases isNewlineChar c <;> cases isUnicodeSpace c <;>
    cases isDisallowedUnicode c <;> cases (c == '=') <;> simp

theorem newlineStart_iff {c : Char} : newlineStart c ↔ Newline c := by
  unfold newlineStart Newline newlineCodes
  simp only [List.mem_cons, List.not_mem_nil, or_false]
  constructor
  · rintro (rfl | rfl | rfl | rfl | rfl | rfl | rfl) <;> decide
  · rintro (h | h | h | h | h | h | h)
    · exact Or.inr (Or.inl (Char.eq_of_toNat h))
    · exact Or.inr (Or.inr (Or.inr (Or.inl (Char.eq_of_toNat h))))
    · exact Or.inr (Or.inr (Or.inr (Or.inr (Or.inl (Char.eq_of_toNat h)))))
    · exact Or.inl (Char.eq_of_toNat h)
    · exact Or.inr (Or.inr (Or.inl (Char.eq_of_toNat h)))
    · exact Or.inr (Or.inr (Or.inr (Or.inr (Or.inr (Or.inl (Char.eq_of_toNat h))))))
    · exact Or.inr (Or.inr (Or.inr (Or.inr (Or.inr (Or.inr (Char.eq_of_toNat h))))))

theorem newline_back {s : Str} (h : ∀ c q, s = c :: q → ¬ Newline c) : newline s = .back := by
  have hl : ∀ a t, Newline a → lit (a :: t) s = .back := by
    intro a t ha
    rw [lit_back]
    rintro r e
    exact h a _ e ha
  unfold newline
  rw [alt_right (hl _ _ (by decide)), alt_right (hl _ _ (by decide)), alt_right (hl _ _ (by decide)),
    alt_right (hl _ _ (by decide)), alt_right (hl _ _ (by decide)), alt_right (hl _ _ (by decide)),
    alt_right (hl _ _ (by decide))]
  exact hl _ _ (by decide)

theorem newline_crlf (q : Str) : newline ('\r' :: '\n' :: q) = .ok () q := rfl

/-- The newline sequences. -/
theorem newline_cons {c : Char} {q : Str} (hc : Newline c) (h : c ≠ '\r' ∨ ∀ t, q ≠ '\n' :: t) :
    newline (c :: q) = .ok () q := by
  have h' := newlineStart_iff.mpr hc
  unfold newlineStart at h'
  rcases h' with rfl | rfl | rfl | rfl | rfl | rfl | rfl
  · have h2 := h.resolve_left (by simp)
    have hb : lit ['\r', '\n'] ('\r' :: q) = .back := by
      rw [lit_back]
      rintro r e
      simp only [List.cons_append, List.nil_append, List.cons.injEq, true_and] at e
      exact h2 r e
    unfold newline
    rw [alt_right hb]
    rfl
  all_goals rfl

/-- On a newline character `newline` succeeds. -/
theorem newline_ok_of {c : Char} {q : Str} (hc : Newline c) :
    ∃ r, newline (c :: q) = .ok () r := by
  by_cases h : c = '\r'
  · subst h
    cases q with
    | nil => exact ⟨_, newline_cons hc (Or.inr (by simp))⟩
    | cons d t =>
      by_cases hd : d = '\n'
      · subst hd; exact ⟨_, newline_crlf t⟩
      · exact ⟨_, newline_cons hc (Or.inr (by rintro t' ⟨⟩; exact hd rfl))⟩
  · exact ⟨_, newline_cons hc (Or.inl h)⟩

theorem unicodeSpace_eq {c : Char} {q : Str} (h : Space c) : unicodeSpace (c :: q) = .ok () q :=
  void_eq (satisfy_eq (isUnicodeSpace_iff.mpr h))

theorem unicodeSpace_back {s : Str} (h : ∀ c q, s = c :: q → ¬ Space c) : unicodeSpace s = .back := by
  unfold unicodeSpace
  refine void_back (satisfy_back.mpr fun c r e => ?_)
  have := h c r e
  rw [← isUnicodeSpace_iff] at this
  simpa using this

theorem disallowedUnicode_back {s : Str} (h : ∀ c q, s = c :: q → ¬ Disallowed c) :
    disallowedUnicode s = .back := by
  unfold disallowedUnicode
  refine void_back (takeWhile1_back.mpr fun c r e => ?_)
  have := h c r e
  rw [← isDisallowedUnicode_iff] at this
  simpa using this

theorem disallowedUnicode_ok_of {c : Char} {q : Str} (hc : Disallowed c) :
    ∃ r, disallowedUnicode (c :: q) = .ok () r := by
  unfold disallowedUnicode
  have : takeWhile1 isDisallowedUnicode (c :: q) =
      .ok (c :: q.takeWhile isDisallowedUnicode) ((c :: q).dropWhile isDisallowedUnicode) := by
    simp [takeWhile1, isDisallowedUnicode_iff.mpr hc]
  exact ⟨_, void_eq this⟩

/-! ### Identifier characters -/

theorem identifierChar_eq {c : Char} {q : Str} (h : IdentChar c) : identifierChar (c :: q) = .ok c q := by
  unfold identifierChar
  obtain ⟨h1, h2, h3, h4⟩ := h
  have e1 : (unicodeSpace <+> newline <+> disallowedUnicode <+> equalsSign) (c :: q) = .back := by
    rw [alt_right (unicodeSpace_back (by rintro c' q' ⟨⟩; exact h1)),
      alt_right (newline_back (by rintro c' q' ⟨⟩; exact h2)),
      alt_right (disallowedUnicode_back (by rintro c' q' ⟨⟩; exact h3))]
    apply lit_cons_ne
    rintro rfl
    exact h4 (by decide)
  rw [bind_eq (notP_eq e1)]
  apply satisfy_eq
  simp only [punctuation, List.mem_cons, List.not_mem_nil, or_false, not_or] at h4
  simp [disallowedIdentChars, h4]

theorem identifierChar_back {s : Str} (h : ∀ c q, s = c :: q → ¬ IdentChar c) :
    identifierChar s = .back := by
  cases s with
  | nil => rfl
  | cons c q =>
    have hc := h c q rfl
    unfold identifierChar
    have nb : ∀ {p : P Unit} {r}, p (c :: q) = .ok () r →
        (do notP p; satisfy fun c => !disallowedIdentChars.contains c : P Char) (c :: q) = .back := by
      intro p r h
      exact bind_back (notP_back h)
    by_cases h1 : Space c
    · exact nb (alt_left (unicodeSpace_eq h1))
    by_cases h2 : Newline c
    · obtain ⟨r, hr⟩ := newline_ok_of (q := q) h2
      refine nb (r := r) ?_
      rw [alt_right (unicodeSpace_back (by rintro c' q' ⟨⟩; exact h1))]
      exact alt_left hr
    by_cases h3 : Disallowed c
    · obtain ⟨r, hr⟩ := disallowedUnicode_ok_of (q := q) h3
      refine nb (r := r) ?_
      rw [alt_right (unicodeSpace_back (by rintro c' q' ⟨⟩; exact h1)),
        alt_right (newline_back (by rintro c' q' ⟨⟩; exact h2))]
      exact alt_left hr
    have h4 : c ∈ punctuation := Classical.byContradiction fun h4 => hc ⟨h1, h2, h3, h4⟩
    by_cases h5 : c = '='
    · subst h5
      refine nb (r := q) ?_
      rw [alt_right (unicodeSpace_back (by rintro c' q' ⟨⟩; exact h1)),
        alt_right (newline_back (by rintro c' q' ⟨⟩; exact h2)),
        alt_right (disallowedUnicode_back (by rintro c' q' ⟨⟩; exact h3))]
      exact lit_one _ _
    · have e1 : (unicodeSpace <+> newline <+> disallowedUnicode <+> equalsSign) (c :: q) = .back := by
        rw [alt_right (unicodeSpace_back (by rintro c' q' ⟨⟩; exact h1)),
          alt_right (newline_back (by rintro c' q' ⟨⟩; exact h2)),
          alt_right (disallowedUnicode_back (by rintro c' q' ⟨⟩; exact h3))]
        exact lit_cons_ne (Ne.symm h5)
      rw [bind_eq (notP_eq e1)]
      apply satisfy_back.mpr
      rintro c' q' ⟨⟩
      simp only [punctuation, List.mem_cons, List.not_mem_nil, or_false] at h4
      rcases h4 with rfl | rfl | rfl | rfl | rfl | rfl | rfl | rfl | rfl | rfl | rfl | rfl <;>
        first | rfl | exact absurd rfl h5

/-- `repeat` of a one-character parser. -/
theorem rep0_char {p : P Char} {f : Char → Prop} (h1 : ∀ c q, f c → p (c :: q) = .ok c q)
    (h2 : ∀ s, (∀ c q, s = c :: q → ¬ f c) → p s = .back) {w r : Str} (hw : ∀ c ∈ w, f c)
    (hr : ∀ c q, r = c :: q → ¬ f c) : rep0 p (w ++ r) = .ok w r := by
  induction w with
  | nil => exact rep0_nil (h2 _ hr)
  | cons c w ih =>
    exact rep0_cons (h1 c _ (hw c (List.mem_cons_self ..))) (by simp)
      (ih fun x hx => hw x (List.mem_cons_of_mem _ hx))

theorem rep0_ident {w r : Str} (hw : ∀ c ∈ w, IdentChar c) (hr : Stop r) :
    rep0 identifierChar (w ++ r) = .ok w r := by
  refine rep0_char (f := IdentChar) (fun c q h => identifierChar_eq h) (fun s h => identifierChar_back h) hw ?_
  rintro c q e h
  have := hr c q e
  rw [isDisallowedIdentChar_iff.mpr h] at this
  cases this

theorem rep0_ident_inv {s r : Str} {l : List Char} (h : rep0 identifierChar s = .ok l r) :
    s = l ++ r ∧ (∀ c ∈ l, IdentChar c) ∧ Stop r := by
  induction rep_of_rep0 h with
  | nil hb =>
    refine ⟨rfl, by simp, ?_⟩
    rintro c q rfl
    cases hc : isDisallowedIdentChar c
    · rw [identifierChar_eq (isDisallowedIdentChar_iff.mp hc)] at hb; cases hb
    · rfl
  | cons h1 _ ht ih =>
    rename_i s q r' c cs _
    obtain ⟨e, h2, h3⟩ := ih (rep0_of_rep ht)
    have hs : s = c :: q ∧ IdentChar c := by
      cases s with
      | nil => cases h1
      | cons c' q' =>
        by_cases hc : IdentChar c'
        · rw [identifierChar_eq hc] at h1; cases h1; exact ⟨rfl, hc⟩
        · rw [identifierChar_back (by rintro _ _ ⟨⟩; exact hc)] at h1; cases h1
    obtain ⟨rfl, hc⟩ := hs
    refine ⟨by rw [e]; rfl, ?_, h3⟩
    intro x hx
    rcases List.mem_cons.mp hx with rfl | hx
    · exact hc
    · exact h2 x hx

/-! ### The three kinds of unquoted strings -/

theorem digit1_back {s : Str} (h : ∀ c q, s = c :: q → isDecDigit c = false) : digit1 s = .back :=
  takeWhile1_back.mpr h

theorem digit1_ok {c : Char} {q : Str} (h : isDecDigit c = true) : ∃ t r, digit1 (c :: q) = .ok t r := by
  refine ⟨c :: q.takeWhile isDecDigit, (c :: q).dropWhile isDecDigit, ?_⟩
  simp [digit1, takeWhile1, h]

/-- A text that starts with neither a digit, a sign nor a point. -/
def Plainly (c : Char) : Prop := isDecDigit c = false ∧ c ≠ '+' ∧ c ≠ '-' ∧ c ≠ '.'

theorem unamb_guard {c : Char} {q : Str} (h : Plainly c) :
    notP (void digit1 <+> (lit ['-'] <+> lit ['+']) <+> lit ['.']) (c :: q) = .ok () (c :: q) := by
  apply notP_eq
  rw [alt_right (void_back (digit1_back (by rintro _ _ ⟨⟩; exact h.1))), alt_right]
  · exact lit_cons_ne (Ne.symm h.2.2.2)
  · rw [alt_right (lit_cons_ne (Ne.symm h.2.2.1))]
    exact lit_cons_ne (Ne.symm h.2.1)

theorem unamb_guard_back {c : Char} {q : Str} (h : ¬ Plainly c) :
    unambiguousIdent (c :: q) = .back := by
  unfold unambiguousIdent
  apply bind_back
  by_cases h1 : isDecDigit c = true
  · obtain ⟨t, r, h2⟩ := digit1_ok (q := q) h1
    exact notP_back (alt_left (void_eq h2))
  · have h1' : isDecDigit c = false := by simpa using h1
    have hd : void digit1 (c :: q) = .back := void_back (digit1_back (by rintro _ _ ⟨⟩; exact h1'))
    by_cases h2 : c = '-'
    · subst h2; exact notP_back (r := q) (a := ()) (by rw [alt_right hd]; rfl)
    by_cases h3 : c = '+'
    · subst h3; exact notP_back (r := q) (a := ()) (by rw [alt_right hd]; rfl)
    by_cases h4 : c = '.'
    · subst h4; exact notP_back (r := q) (a := ()) (by rw [alt_right hd]; rfl)
    · exact absurd ⟨h1', h3, h2, h4⟩ h

theorem rep1_ident {c : Char} {w r : Str} (hc : IdentChar c) (hw : ∀ c ∈ w, IdentChar c) (hr : Stop r) :
    rep1 identifierChar (c :: (w ++ r)) = .ok (c :: w) r :=
  rep1_eq (identifierChar_eq hc) (rep0_ident hw hr)

theorem unamb_eq {c : Char} {w r : Str} (hp : Plainly c) (hc : IdentChar c) (hw : ∀ c ∈ w, IdentChar c)
    (hr : Stop r) : unambiguousIdent (c :: (w ++ r)) =
      if keywordWords.contains (c :: w) then .cut else .ok () r := by
  unfold unambiguousIdent
  rw [bind_eq (unamb_guard hp), bind_eq (peek_eq (identifierChar_eq hc))]
  have h1 := rep1_ident hc hw hr
  split
  · rename_i hk
    apply cutErr_back
    refine void_back (mapOpt_none h1 ?_)
    rw [if_pos hk]
  · rename_i hk
    refine cutErr_eq (void_eq (a := c :: w) (mapOpt_eq h1 ?_))
    rw [if_neg hk]

theorem unamb_back {c : Char} {q : Str} (hc : ¬ IdentChar c) : unambiguousIdent (c :: q) = .back := by
  by_cases hp : Plainly c
  · unfold unambiguousIdent
    rw [bind_eq (unamb_guard hp)]
    apply bind_back
    unfold peek
    rw [identifierChar_back (by rintro _ _ ⟨⟩; exact hc)]
  · exact unamb_guard_back hp

/-- `t` does not start with a digit. -/
def NoDigit (t : Str) : Prop := ∀ c q, t = c :: q → isDecDigit c = false

theorem Stop.noDigit {r : Str} (h : Stop r) : NoDigit r := by
  rintro c q rfl
  cases hd : isDecDigit c
  · rfl
  · have := h c q rfl
    rw [hex_not_disallowed (hex_of_dec hd)] at this; cases this

theorem Stop.noDot {r : Str} (h : Stop r) : ∀ t, r ≠ '.' :: t := by
  rintro t rfl
  exact absurd (h _ _ rfl) (by decide)

theorem noDigit_append {w r : Str} (hw : NoDigit w) (hr : Stop r) : NoDigit (w ++ r) := by
  cases w with
  | nil => exact hr.noDigit
  | cons c w => rintro c' q ⟨⟩; exact hw _ _ rfl

theorem noDot_append {w r : Str} (hw : ∀ t, w ≠ '.' :: t) (hr : Stop r) : ∀ t, w ++ r ≠ '.' :: t := by
  cases w with
  | nil => exact hr.noDot
  | cons c w => rintro t ⟨⟩; exact hw _ rfl

theorem signed_guard {q : Str} (h1 : NoDigit q) (h2 : ∀ t, q ≠ '.' :: t) :
    notP (void digit1 <+> lit ['.']) q = .ok () q := by
  apply notP_eq
  rw [alt_right (void_back (digit1_back h1))]
  exact lit_back.mpr h2

theorem signed_eq {c : Char} {w r : Str} (hc : c = '+' ∨ c = '-') (hw : ∀ c ∈ w, IdentChar c) (hr : Stop r)
    (h1 : NoDigit w) (h2 : ∀ t, w ≠ '.' :: t) : signedIdent (c :: (w ++ r)) = .ok () r := by
  unfold signedIdent
  have e : (lit ['+'] <+> lit ['-']) (c :: (w ++ r)) = .ok () (w ++ r) := by
    rcases hc with rfl | rfl <;> rfl
  rw [bind_eq e, bind_eq (signed_guard (noDigit_append h1 hr) (noDot_append h2 hr))]
  exact void_eq (rep0_ident hw hr)

theorem signed_back {s : Str} (h : ∀ c q, s = c :: q → c ≠ '+' ∧ c ≠ '-') : signedIdent s = .back := by
  unfold signedIdent
  apply bind_back
  rw [alt_right (lit_back.mpr fun r e => (h _ _ e).1 rfl)]
  exact lit_back.mpr fun r e => (h _ _ e).2 rfl

theorem signed_back_num {c : Char} {q : Str} (hc : c = '+' ∨ c = '-')
    (h : ¬ NoDigit q ∨ ∃ t, q = '.' :: t) : signedIdent (c :: q) = .back := by
  unfold signedIdent
  have e : (lit ['+'] <+> lit ['-']) (c :: q) = .ok () q := by
    rcases hc with rfl | rfl <;> rfl
  rw [bind_eq e]
  apply bind_back
  rcases h with h | ⟨t, rfl⟩
  · cases q with
    | nil => exact absurd (by rintro _ _ ⟨⟩) h
    | cons d t =>
      have hd : isDecDigit d = true := by
        cases hd : isDecDigit d
        · exact absurd (by rintro _ _ ⟨⟩; exact hd) h
        · rfl
      obtain ⟨t, r, h2⟩ := digit1_ok (q := t) hd
      exact notP_back (alt_left (void_eq h2))
  · refine notP_back (r := t) (a := ()) ?_
    rw [alt_right (void_back (digit1_back (by rintro _ _ ⟨⟩; decide)))]
    exact lit_one _ _

theorem dotted_eq {sg w r : Str} {k : Int} (hs : Sign sg k) (hw : ∀ c ∈ w, IdentChar c) (hr : Stop r)
    (h1 : NoDigit w) : dottedIdent (sg ++ '.' :: (w ++ r)) = .ok () r := by
  obtain ⟨b, hsig, _⟩ := signum_sign hs (c := '.') (q := w ++ r) (by decide) (by decide)
  unfold dottedIdent
  rw [bind_eq (opt_some hsig), bind_eq (lit_one _ _),
    bind_eq (notP_eq (digit1_back (noDigit_append h1 hr)))]
  exact void_eq (rep0_ident hw hr)

theorem dotted_back_num {sg q : Str} {k : Int} (hs : Sign sg k) (h : ¬ NoDigit q) :
    dottedIdent (sg ++ '.' :: q) = .back := by
  obtain ⟨b, hsig, _⟩ := signum_sign hs (c := '.') (q := q) (by decide) (by decide)
  unfold dottedIdent
  rw [bind_eq (opt_some hsig), bind_eq (lit_one _ _)]
  apply bind_back
  cases q with
  | nil => exact absurd (by rintro _ _ ⟨⟩) h
  | cons d t =>
    have hd : isDecDigit d = true := by
      cases hd : isDecDigit d
      · exact absurd (by rintro _ _ ⟨⟩; exact hd) h
      · rfl
    obtain ⟨t, r, h2⟩ := digit1_ok (q := t) hd
    exact notP_back h2

theorem dotted_back {s q : Str} {b : Bool} (hsig : signum s = .ok b q) (h : ∀ t, q ≠ '.' :: t) :
    dottedIdent s = .back := by
  unfold dottedIdent
  rw [bind_eq (opt_some hsig)]
  exact bind_back (lit_back.mpr h)

theorem not_noDigit {t : Str} (h : ¬ NoDigit t) : ∃ d q, t = d :: q ∧ isDecDigit d = true := by
  cases t with
  | nil => exact absurd (by rintro _ _ ⟨⟩) h
  | cons d q =>
    refine ⟨d, q, rfl, ?_⟩
    cases hd : isDecDigit d
    · exact absurd (by rintro _ _ ⟨⟩; exact hd) h
    · rfl

theorem numberLike_of {sg pt q : Str} {k : Int} (hs : Sign sg k) (hp : pt = [] ∨ pt = ['.'])
    (h : ¬ NoDigit q) : NumberLike (sg ++ pt ++ q) := by
  obtain ⟨d, t, rfl, hd⟩ := not_noDigit h
  exact ⟨sg, k, pt, d, t, hs, hp, isDigit_iff.1.mpr hd, rfl⟩

theorem noDigit_of_not {sg pt q : Str} {k : Int} (hs : Sign sg k) (hp : pt = [] ∨ pt = ['.'])
    (h : ¬ NumberLike (sg ++ pt ++ q)) : NoDigit q :=
  Classical.byContradiction fun h' => h (numberLike_of hs hp h')

theorem keyword_mem {w : Str} : keywordWords.contains w = true ↔ w ∈ reserved := by
  rw [List.contains_iff_mem]; rfl

/-- A valid unquoted string is read as itself. -/
theorem identString_eq {w r : Str} (h : Bare w) (hr : Stop r) : identifierString (w ++ r) = .ok w r := by
  obtain ⟨hne, hch, hnum, hres⟩ := h
  unfold identifierString
  refine takeP_eq (a := ()) ?_
  cases w with
  | nil => exact absurd rfl hne
  | cons c w =>
    have hc := hch c (List.mem_cons_self ..)
    have hw : ∀ x ∈ w, IdentChar x := fun x hx => hch x (List.mem_cons_of_mem _ hx)
    by_cases hp : Plainly c
    · apply alt_left
      rw [List.cons_append, unamb_eq hp hc hw hr, if_neg]
      intro hk
      have := hres (keyword_mem.mp hk)
      injection this with h1 _
      exact hp.2.2.1 h1
    · rw [List.cons_append, alt_right (unamb_guard_back hp)]
      have hd : isDecDigit c = false := by
        have := noDigit_of_not (q := c :: w) .none (Or.inl rfl) hnum
        exact this _ _ rfl
      by_cases hsg : c = '+' ∨ c = '-'
      · obtain ⟨k, hs⟩ : ∃ k, Sign [c] k := by
          rcases hsg with rfl | rfl
          · exact ⟨_, .plus⟩
          · exact ⟨_, .minus⟩
        have h1 : NoDigit w := noDigit_of_not hs (Or.inl rfl) (by simpa using hnum)
        by_cases hdot : ∃ t, w = '.' :: t
        · obtain ⟨t, rfl⟩ := hdot
          rw [List.cons_append, alt_right (signed_back_num hsg (Or.inr ⟨_, rfl⟩))]
          have h2 : NoDigit t := noDigit_of_not hs (Or.inr rfl) (by simpa using hnum)
          exact dotted_eq hs (fun x hx => hw x (List.mem_cons_of_mem _ hx)) hr h2
        · exact alt_left (signed_eq hsg hw hr h1 (fun t e => hdot ⟨t, e⟩))
      · have hdot : c = '.' := by
          apply Classical.byContradiction
          intro h4
          exact hp ⟨hd, fun h => hsg (Or.inl h), fun h => hsg (Or.inr h), h4⟩
        subst hdot
        rw [alt_right (signed_back (by rintro _ _ ⟨⟩; decide))]
        have h2 : NoDigit w := noDigit_of_not (pt := ['.']) .none (Or.inr rfl) (by simpa using hnum)
        exact dotted_eq .none hw hr h2

/-- No unquoted string starts with a character that is not allowed in one. -/
theorem identString_back {s : Str} (h : ∀ c q, s = c :: q → ¬ IdentChar c) :
    identifierString s = .back := by
  cases s with
  | nil => rfl
  | cons c q =>
    have hc := h c q rfl
    have h1 : c ≠ '+' ∧ c ≠ '-' ∧ c ≠ '.' := by
      refine ⟨?_, ?_, ?_⟩ <;> rintro rfl <;> exact hc (by decide)
    unfold identifierString
    apply takeP_back
    rw [alt_right (unamb_back hc), alt_right (signed_back (by rintro _ _ ⟨⟩; exact ⟨h1.1, h1.2.1⟩))]
    exact dotted_back (signum_none h1.1 h1.2.1) (by rintro t ⟨⟩; exact h1.2.2 rfl)

theorem sign_char {sg : Str} {k : Int} (h : Sign sg k) : sg = [] ∨ ∃ c, sg = [c] ∧ (c = '+' ∨ c = '-') := by
  cases h with
  | none => exact Or.inl rfl
  | plus => exact Or.inr ⟨_, rfl, Or.inl rfl⟩
  | minus => exact Or.inr ⟨_, rfl, Or.inr rfl⟩

/-- No unquoted string starts like a number. -/
theorem identString_num {s : Str} (h : NumberLike s) : identifierString s = .back := by
  obtain ⟨sg, k, pt, d, t, hs, hp, hd, rfl⟩ := h
  have hd' := isDigit_iff.1.mp hd
  have hnd : ¬ NoDigit (d :: t) := fun h => by have := h _ _ rfl; rw [hd'] at this; cases this
  have hdf := dec_facts (hex_of_dec hd')
  unfold identifierString
  apply takeP_back
  rcases sign_char hs with rfl | ⟨c, rfl, hc⟩
  · rcases hp with rfl | rfl
    · rw [List.nil_append, List.nil_append, alt_right (unamb_guard_back (fun h => by rw [h.1] at hd'; cases hd')),
        alt_right (signed_back (by rintro _ _ ⟨⟩; exact ⟨hdf.1, hdf.2.1⟩))]
      exact dotted_back (signum_none hdf.1 hdf.2.1) (by rintro t ⟨⟩; exact hdf.2.2.1 rfl)
    · rw [List.nil_append, List.singleton_append, alt_right (unamb_guard_back (fun h => h.2.2.2 rfl)),
        alt_right (signed_back (by rintro _ _ ⟨⟩; decide))]
      exact dotted_back_num (sg := []) .none hnd
  · have hpl : ¬ Plainly c := fun h => by
      rcases hc with rfl | rfl
      · exact h.2.1 rfl
      · exact h.2.2.1 rfl
    rcases hp with rfl | rfl
    · rw [List.append_nil, List.singleton_append, alt_right (unamb_guard_back hpl),
        alt_right (signed_back_num hc (Or.inl hnd))]
      have hsig : ∃ b, signum (c :: d :: t) = .ok b (d :: t) := by
        rcases hc with rfl | rfl
        · exact ⟨_, signum_plus _⟩
        · exact ⟨_, signum_minus _⟩
      obtain ⟨b, hsig⟩ := hsig
      exact dotted_back hsig (by rintro t ⟨⟩; exact hdf.2.2.1 rfl)
    · rw [List.append_assoc, List.singleton_append, List.singleton_append, alt_right (unamb_guard_back hpl),
        alt_right (signed_back_num hc (Or.inr ⟨_, rfl⟩))]
      exact dotted_back_num hs hnd

theorem not_numberLike {sg pt q : Str} {k : Int} (hs : Sign sg k) (hp : pt = [] ∨ pt = ['.'])
    (h1 : NoDigit q) (h2 : pt = [] → ∀ t, q ≠ '.' :: t) (h3 : pt = [] → sg = [] → ∀ c t, q = c :: t → c ≠ '+' ∧ c ≠ '-') :
    ¬ NumberLike (sg ++ pt ++ q) := by
  rintro ⟨sg', k', pt', d, t, hs', hp', hd, e⟩
  have hd' := isDigit_iff.1.mp hd
  have hdf := dec_facts (hex_of_dec hd')
  have hq : ∀ t', q = d :: t' → False := fun t' e => by
    have := h1 _ _ e; rw [hd'] at this; cases this
  rcases hp with rfl | rfl
  · have h2' := h2 rfl
    cases hs <;> cases hs' <;> rcases hp' with rfl | rfl <;>
      simp only [List.nil_append, List.cons_append, List.append_nil, List.cons.injEq] at e
    all_goals first
      | exact hq _ e
      | exact h2' _ e
      | exact hq _ e.2
      | exact h2' _ e.2
      | exact hdf.1 e.1.symm
      | exact hdf.2.1 e.1.symm
      | exact absurd e.1 (by decide)
      | exact (h3 rfl rfl _ _ e).1 rfl
      | exact (h3 rfl rfl _ _ e).2 rfl
  · cases hs <;> cases hs' <;> rcases hp' with rfl | rfl <;>
      simp only [List.nil_append, List.cons_append, List.append_nil, List.cons.injEq] at e
    all_goals first
      | exact hq _ e.2
      | exact hq _ e.2.2
      | exact hdf.2.2.1 e.1.symm
      | exact hdf.2.2.1 e.2.1.symm
      | exact hdf.1 e.1.symm
      | exact hdf.2.1 e.1.symm
      | exact absurd e.1 (by decide)

theorem digit1_inv_back {s : Str} (h : digit1 s = .back) : NoDigit s := takeWhile1_back.mp h

/-- An accepted unquoted string. -/
theorem identString_inv {s w r : Str} (h : identifierString s = .ok w r) : s = w ++ r ∧ Bare w ∧ Stop r := by
  have hsf : Sfx (unambiguousIdent <+> signedIdent <+> dottedIdent) :=
    (Strict.unambiguousIdent.alt (Strict.signedIdent.alt Strict.dottedIdent)).sfx
  unfold identifierString at h
  obtain ⟨rfl, u, h⟩ := takeP_inv hsf h
  refine ⟨rfl, ?_⟩
  rcases alt_ok.mp h with h | ⟨hb, h⟩
  · cases hs : w ++ r with
    | nil => rw [hs] at h; cases h
    | cons c q =>
      rw [hs] at h
      by_cases hp : Plainly c
      · by_cases hc : IdentChar c
        · obtain ⟨l, q', hl⟩ : ∃ l q', rep0 identifierChar q = .ok l q' := by
            unfold unambiguousIdent at h
            rw [bind_eq (unamb_guard hp), bind_eq (peek_eq (identifierChar_eq hc))] at h
            rw [cutErr_ok, void_ok] at h
            obtain ⟨a, h⟩ := h
            obtain ⟨a', h, _⟩ := mapOpt_ok.mp h
            obtain ⟨_, q', as, h1, h2, _⟩ := rep1_ok.mp h
            rw [identifierChar_eq hc] at h1
            cases h1
            exact ⟨as, r, h2⟩
          obtain ⟨rfl, hl1, hl2⟩ := rep0_ident_inv hl
          rw [unamb_eq hp hc hl1 hl2] at h
          split at h
          · cases h
          · rename_i hk
            cases h
            have e : w = c :: l := by
              have : w ++ r = (c :: l) ++ r := hs
              exact List.append_cancel_right this
            subst e
            refine ⟨⟨by simp, ?_, ?_, ?_⟩, hl2⟩
            · intro x hx
              rcases List.mem_cons.mp hx with rfl | hx
              · exact hc
              · exact hl1 x hx
            · exact not_numberLike (sg := []) (pt := []) .none (Or.inl rfl) (by rintro _ _ ⟨⟩; exact hp.1)
                (fun _ t e => hp.2.2.2 (List.cons.inj e).1) (fun _ _ c' t e => by
                  cases e; exact ⟨hp.2.1, hp.2.2.1⟩)
            · intro hr; exact absurd (keyword_mem.mpr hr) hk
        · rw [unamb_back hc] at h; cases h
      · rw [unamb_guard_back hp] at h; cases h
  rcases alt_ok.mp h with h | ⟨hb', h⟩
  · unfold signedIdent at h
    rw [bind_ok] at h
    obtain ⟨_, q, h1, h⟩ := h
    rw [bind_ok] at h
    obtain ⟨_, q', h2, h⟩ := h
    obtain ⟨l, h⟩ := void_ok.mp h
    obtain ⟨rfl, hg⟩ := notP_ok.mp h2
    have hg1 : NoDigit q' := by
      apply Classical.byContradiction
      intro hn
      obtain ⟨d, t, rfl, hd⟩ := not_noDigit hn
      obtain ⟨t, r, h2⟩ := digit1_ok (q := t) hd
      rw [alt_left (void_eq h2)] at hg; cases hg
    have hg2 : ∀ t, q' ≠ '.' :: t := by
      rw [alt_right (void_back (digit1_back hg1))] at hg
      exact lit_back.mp hg
    obtain ⟨rfl, hl1, hl2⟩ := rep0_ident_inv h
    obtain ⟨c, k, hc, hs, e⟩ : ∃ c k, (c = '+' ∨ c = '-') ∧ Sign [c] k ∧ w ++ r = c :: (l ++ r) := by
      simp only [alt_ok, lit_ok] at h1
      rcases h1 with h1 | ⟨_, h1⟩
      · exact ⟨_, _, Or.inl rfl, .plus, h1⟩
      · exact ⟨_, _, Or.inr rfl, .minus, h1⟩
    have e : w = c :: l := List.append_cancel_right (by simpa using e)
    subst e
    have hlD : NoDigit l := by
      rintro d t rfl; exact hg1 _ _ rfl
    have hlP : ∀ t, l ≠ '.' :: t := by
      rintro t rfl; exact hg2 _ rfl
    refine ⟨⟨by simp, ?_, ?_, ?_⟩, hl2⟩
    · intro x hx
      rcases List.mem_cons.mp hx with rfl | hx
      · rcases hc with rfl | rfl <;> decide
      · exact hl1 x hx
    · exact not_numberLike (pt := []) hs (Or.inl rfl) hlD (fun _ => hlP) (by simp)
    · intro hm
      rcases hc with rfl | rfl
      · revert hm; simp [reserved]
      · simp [reserved] at hm ⊢
        exact hm
  · unfold dottedIdent at h
    rw [bind_ok] at h
    obtain ⟨o, q, h1, h⟩ := h
    rw [bind_ok] at h
    obtain ⟨_, q', h2, h⟩ := h
    rw [bind_ok] at h
    obtain ⟨_, q'', h3, h⟩ := h
    obtain ⟨l, h⟩ := void_ok.mp h
    obtain ⟨rfl, hg⟩ := notP_ok.mp h3
    obtain ⟨rfl, hl1, hl2⟩ := rep0_ident_inv h
    obtain rfl := lit_ok.mp h2
    have hsg : ∃ sg k, Sign sg k ∧ w ++ r = sg ++ ['.'] ++ (l ++ r) := by
      rcases opt_ok.mp h1 with ⟨b, _, h1⟩ | ⟨_, e, _⟩
      · obtain ⟨sg, k, hs, e, _⟩ := signum_ok h1
        exact ⟨sg, k, hs, by rw [e]; simp⟩
      · exact ⟨[], 1, .none, by rw [← e]; rfl⟩
    obtain ⟨sg, k, hs, e⟩ := hsg
    have e : w = sg ++ ['.'] ++ l := List.append_cancel_right (by simpa using e)
    subst e
    have hlD : NoDigit l := by
      rintro d t rfl; exact digit1_inv_back hg _ _ rfl
    refine ⟨⟨by simp, ?_, ?_, ?_⟩, hl2⟩
    · intro x hx
      rcases List.mem_append.mp hx with hx | hx
      · rcases List.mem_append.mp hx with hx | hx
        · rcases sign_char hs with rfl | ⟨c, rfl, hc⟩
          · cases hx
          · obtain rfl := List.mem_singleton.mp hx
            rcases hc with rfl | rfl <;> decide
        · obtain rfl := List.mem_singleton.mp hx
          decide
      · exact hl1 x hx
    · exact not_numberLike hs (Or.inr rfl) hlD (by simp) (by simp)
    · intro hm
      cases hs <;> simp [reserved] at hm

end Kdl
