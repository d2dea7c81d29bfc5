import Verif.Lemmas.Parser.Multi
/-
Raw strings, and what strings look like in general.
-/

namespace Kdl
open Spec

/-! ### Hashes -/

theorem hashes_succ (n : Nat) : hashes (n + 1) = '#' :: hashes n := rfl

theorem rep0_hash {s : Str} (h : ∀ q, s ≠ '#' :: q) (n : Nat) : ∃ l, rep0 (lit ['#']) (hashes n ++ s) = .ok l s := by
  induction n with
  | zero => exact ⟨[], rep0_nil (lit_back.mpr h)⟩
  | succ n ih =>
    obtain ⟨l, hl⟩ := ih
    exact ⟨() :: l, rep0_cons (lit_one _ _) (by simp [hashes]) hl⟩

theorem hashes_eq (n : Nat) (q : Str) : takeP (rep1 (lit ['#'])) (hashes (n + 1) ++ '"' :: q) = .ok (hashes (n + 1)) ('"' :: q) := by
  obtain ⟨l, hl⟩ := rep0_hash (s := '"' :: q) (by rintro _ ⟨⟩) n
  exact takeP_eq (a := () :: l) (rep1_eq (lit_one _ _) hl)

theorem rep0_hash_inv {s r : Str} {l : List Unit} (h : rep0 (lit ['#']) s = .ok l r) : ∃ n, s = hashes n ++ r := by
  induction rep_of_rep0 h with
  | nil => exact ⟨0, rfl⟩
  | @cons s1 s2 s3 a as h1 _ ht ih =>
    obtain ⟨n, e⟩ := ih (rep0_of_rep ht)
    exact ⟨n + 1, by rw [lit_ok.mp h1, e]; rfl⟩

theorem hashes_inv {s h r : Str} (hh : takeP (rep1 (lit ['#'])) s = .ok h r) : ∃ n, h = hashes (n + 1) ∧ s = h ++ r := by
  have hs : Sfx (rep1 (lit ['#'])) := (Strict.rep1 (.lit (by simp))).sfx
  obtain ⟨e, a, h1⟩ := takeP_inv hs hh
  obtain ⟨a, as, q, h2, h3, rfl⟩ := rep1_ok.mp h1
  obtain ⟨n, e'⟩ := rep0_hash_inv h3
  refine ⟨n, ?_, e⟩
  rw [lit_ok.mp h2, e'] at e
  exact (List.append_cancel_right (show hashes (n + 1) ++ r = h ++ r from e)).symm

/-! ### Patterns in lines -/

theorem pat_within {c s pat x : Str} (hs : AtNewline s) (hp : ∀ a ∈ pat, ¬ Newline a) (h : c ++ s = pat ++ x) :
    ∃ y, c = pat ++ y := by
  rcases List.append_eq_append_iff.mp h with ⟨a, h1, h2⟩ | ⟨a, h1, _⟩
  · cases a with
    | nil => exact ⟨[], by simpa using h1.symm⟩
    | cons b a =>
      obtain ⟨d, q, rfl, hd⟩ := hs
      have : d = b := (List.cons.inj h2).1
      subst this
      exact absurd hd (hp d (by simp [h1]))
  · exact ⟨a, h1⟩

/-- Three quotes and `n` hashes. -/
def rawEnd (n : Nat) : Str := tripleQuote ++ hashes n

theorem rawEnd_newline (n : Nat) : ∀ a ∈ rawEnd n, ¬ Newline a := by
  intro a ha
  simp only [rawEnd, tripleQuote, hashes, List.mem_append, List.mem_cons, List.not_mem_nil, or_false,
    List.mem_replicate] at ha
  rcases ha with (rfl | rfl | rfl) | ⟨_, rfl⟩ <;> decide

theorem not_contains_tail {a : Char} {c p : Str} (h : ¬ Contains (a :: c) p) : ¬ Contains c p := by
  rintro ⟨x, y, rfl⟩
  exact h ⟨a :: x, y, rfl⟩

theorem not_contains_suffix {b c p : Str} (h : ¬ Contains (b ++ c) p) : ¬ Contains c p := by
  rintro ⟨x, y, rfl⟩
  exact h ⟨b ++ x, y, by simp⟩

theorem two_lits {a b s r : Str} {u : Unit} : (do lit a; lit b : P Unit) s = .ok u r ↔ s = a ++ (b ++ r) := by
  rw [bind_ok]
  constructor
  · rintro ⟨_, q, h1, h2⟩
    rw [lit_ok.mp h1, lit_ok.mp h2]
  · rintro rfl
    exact ⟨(), b ++ r, lit_append _ _, lit_append _ _⟩

theorem two_lits_back {a b s : Str} (h : ∀ x, s ≠ a ++ (b ++ x)) : (do lit a; lit b : P Unit) s = .back := by
  cases hl : lit a s with
  | ok u q =>
    rw [bind_eq hl, lit_back]
    intro x e
    exact h x (by rw [lit_ok.mp hl, e])
  | back => exact bind_back hl
  | cut => unfold lit at hl; split at hl <;> cases hl
  | crash => unfold lit at hl; split at hl <;> cases hl

theorem two_lits_not {a b s : Str} (h : (do lit a; lit b : P Unit) s = .back) : ∀ x, s ≠ a ++ (b ++ x) := by
  rintro x rfl
  rw [two_lits (u := ()) |>.mpr rfl] at h
  cases h

/-! ### Single-line raw strings -/

theorem raw_no_early {n : Nat} {b : Char} {bs r : Str} (h : ¬ Contains (b :: bs) ('"' :: hashes n)) :
    ∀ x, b :: (bs ++ '"' :: r) ≠ ['"'] ++ (hashes n ++ x) := by
  intro x e
  obtain ⟨rfl, e'⟩ := List.cons.inj e
  have e : bs ++ '"' :: r = hashes n ++ x := e'
  rcases List.append_eq_append_iff.mp e with ⟨a, h1, h2⟩ | ⟨a, h1, _⟩
  · cases a with
    | nil => exact h ⟨[], [], by simp at h1; simp [h1]⟩
    | cons c a =>
      have hc : c = '#' := by
        have : c ∈ hashes n := by simp [h1]
        exact (List.mem_replicate.mp this).2
      rw [hc] at h2
      exact absurd (List.cons.inj h2).1 (by decide)
  · exact h ⟨[], a, by simp [h1]⟩

/-- One character of a single-line raw string. -/
def rawItem (h : Str) : P Char := do
  notP disallowedUnicode
  notP newline
  notP (do lit ['"']; lit h)
  anyChar

theorem rawItem_eq {h : Str} {c : Char} {q : Str} (h1 : ¬ Newline c) (h2 : ¬ Disallowed c)
    (h3 : ∀ x, c :: q ≠ ['"'] ++ (h ++ x)) : rawItem h (c :: q) = .ok c q := by
  unfold rawItem
  rw [bind_eq (notP_eq (disallowedUnicode_back (by rintro _ _ ⟨⟩; exact h2))), bind_eq (notP_eq (not_newline h1)),
    bind_eq (notP_eq (two_lits_back h3))]
  rfl

theorem raw_forward {n : Nat} {body r : Str} (h1 : ∀ a ∈ body, ¬ Newline a ∧ ¬ Disallowed a)
    (h2 : ¬ Contains body ('"' :: hashes n)) :
    RepTill (rawItem (hashes n)) (peek (do lit ['"']; lit (hashes n))) (body ++ '"' :: (hashes n ++ r)) body ()
      ('"' :: (hashes n ++ r)) := by
  induction body with
  | nil => exact .nil (peek_eq (r := r) (two_lits.mpr rfl))
  | cons b bs ih =>
    have hb := h1 b List.mem_cons_self
    have he := raw_no_early (r := hashes n ++ r) h2
    refine .cons ?_ (rawItem_eq hb.1 hb.2 he) (by simp)
      (ih (fun a ha => h1 a (List.mem_cons_of_mem _ ha)) (not_contains_tail h2))
    unfold peek
    rw [List.cons_append, two_lits_back he]

theorem newline_not {s : Str} (h : newline s = .back) : ∀ c q, s = c :: q → ¬ Newline c := by
  rintro c q rfl hc
  obtain ⟨r, hr⟩ := newline_ok_of (q := q) hc
  rw [hr] at h; cases h

theorem disallowed_not {s : Str} (h : disallowedUnicode s = .back) : ∀ c q, s = c :: q → ¬ Disallowed c := by
  rintro c q rfl hc
  obtain ⟨r, hr⟩ := disallowedUnicode_ok_of (q := q) hc
  rw [hr] at h; cases h

theorem anyChar_inv {s r : Str} {c : Char} (h : anyChar s = .ok c r) : s = c :: r := by
  cases s with
  | nil => cases h
  | cons d q => cases h; rfl

theorem rawItem_inv {h s r : Str} {c : Char} (hh : rawItem h s = .ok c r) :
    s = c :: r ∧ ¬ Newline c ∧ ¬ Disallowed c ∧ ∀ x, s ≠ ['"'] ++ (h ++ x) := by
  unfold rawItem at hh
  rw [bind_ok] at hh
  obtain ⟨_, q, h1, hh⟩ := hh
  obtain ⟨rfl, h1⟩ := notP_ok.mp h1
  rw [bind_ok] at hh
  obtain ⟨_, q, h2, hh⟩ := hh
  obtain ⟨rfl, h2⟩ := notP_ok.mp h2
  rw [bind_ok] at hh
  obtain ⟨_, q, h3, hh⟩ := hh
  obtain ⟨rfl, h3⟩ := notP_ok.mp h3
  have e := anyChar_inv hh
  exact ⟨e, newline_not h2 _ _ e, disallowed_not h1 _ _ e, two_lits_not h3⟩

theorem raw_inv {h s r : Str} {l : List Char} {u : Unit}
    (hh : RepTill (rawItem h) (peek (do lit ['"']; lit h)) s l u r) :
    s = l ++ r ∧ (∃ q, r = '"' :: (h ++ q)) ∧ (∀ a ∈ l, ¬ Newline a ∧ ¬ Disallowed a) ∧ ¬ Contains l ('"' :: h) := by
  induction hh with
  | nil hp =>
    obtain ⟨rfl, q, hp⟩ := peek_ok.mp hp
    refine ⟨rfl, ⟨q, two_lits.mp hp⟩, by simp, ?_⟩
    rintro ⟨a, b, e⟩
    have := congrArg List.length e
    simp at this
  | @cons s q r a as b he hi hl ht ih =>
    obtain ⟨rfl, h2, h3, h4⟩ := ih
    obtain ⟨rfl, g1, g2, g3⟩ := rawItem_inv hi
    refine ⟨rfl, h2, ?_, ?_⟩
    · intro x hx
      rcases List.mem_cons.mp hx with rfl | hx
      · exact ⟨g1, g2⟩
      · exact h3 x hx
    · rintro ⟨x, y, e⟩
      cases x with
      | nil => exact g3 (y ++ r) (by rw [← List.cons_append, e]; simp)
      | cons z x => exact h4 ⟨x, y, (List.cons.inj e).2⟩

/-! ### Multi-line raw strings -/

/-- One character, for the look-ahead. -/
def rawScanItem (h : Str) : P Char := do
  notP newline
  notP disallowedUnicode
  notP (do lit tripleQuote; lit h)
  anyChar
/-- A line, for the look-ahead. -/
def rawScan (h : Str) : P Unit := do let _ ← rep0 (rawScanItem h); newline
/-- The end, for the look-ahead. -/
def rawScanEnd (h : Str) : P Unit := peek (do let _ ← rep0 unicodeSpace; lit tripleQuote; lit h)
/-- One character of the body. -/
def rawLineItem (h : Str) : P Char := do notP newline; notP (do lit tripleQuote; lit h); anyChar
/-- The end of the body. -/
def rawBodyEnd (h pre : Str) : P Unit := do
  lit pre
  let _ ← rep0 unicodeSpace
  peek (do lit tripleQuote; lit h)

theorem end_within {n : Nat} {c s : Str} (hs : AtNewline s) (h : ¬ Contains c (rawEnd n)) :
    ∀ x, c ++ s ≠ tripleQuote ++ (hashes n ++ x) := by
  intro x e
  rw [← List.append_assoc] at e
  obtain ⟨y, rfl⟩ := pat_within hs (rawEnd_newline n) e
  exact h ⟨[], y, by simp [rawEnd]⟩

theorem rawScanItem_eq {h : Str} {c : Char} {q : Str} (h1 : ¬ Newline c) (h2 : ¬ Disallowed c)
    (h3 : ∀ x, c :: q ≠ tripleQuote ++ (h ++ x)) : rawScanItem h (c :: q) = .ok c q := by
  unfold rawScanItem
  rw [bind_eq (notP_eq (not_newline h1)), bind_eq (notP_eq (disallowedUnicode_back (by rintro _ _ ⟨⟩; exact h2))),
    bind_eq (notP_eq (two_lits_back h3))]
  rfl

theorem rawLineItem_eq {h : Str} {c : Char} {q : Str} (h1 : ¬ Newline c)
    (h3 : ∀ x, c :: q ≠ tripleQuote ++ (h ++ x)) : rawLineItem h (c :: q) = .ok c q := by
  unfold rawLineItem
  rw [bind_eq (notP_eq (not_newline h1)), bind_eq (notP_eq (two_lits_back h3))]
  rfl

theorem rawScan_forward {n : Nat} {c s : Str} (hs : AtNewline s) (h0 : ∀ a ∈ c, ¬ Newline a ∧ ¬ Disallowed a)
    (h1 : ¬ Contains c (rawEnd n)) : Rep (rawScanItem (hashes n)) (c ++ s) c s := by
  induction c with
  | nil =>
    obtain ⟨r, hr⟩ := hs.ok
    exact .nil (bind_back (notP_back hr))
  | cons a c ih =>
    have ha := h0 a List.mem_cons_self
    exact .cons (rawScanItem_eq ha.1 ha.2 (end_within hs h1)) (by simp)
      (ih (fun a ha => h0 a (List.mem_cons_of_mem _ ha)) (not_contains_tail h1))

theorem rawLine_forward {n : Nat} {c s r : Str} (hs : AtNewline s) (hr : newline s = .ok () r)
    (h0 : ∀ a ∈ c, ¬ Newline a) (h1 : ¬ Contains c (rawEnd n)) :
    RepTill (rawLineItem (hashes n)) newline (c ++ s) c () r := by
  induction c with
  | nil => exact .nil hr
  | cons a c ih =>
    have ha := h0 a List.mem_cons_self
    exact .cons (not_newline ha) (rawLineItem_eq ha (end_within hs h1)) (by simp)
      (ih (fun a ha => h0 a (List.mem_cons_of_mem _ ha)) (not_contains_tail h1))

theorem rep0_spaces {sp s : Str} (h : ∀ c ∈ sp, Space c) (hs : ∀ c q, s = c :: q → ¬ Space c) :
    ∃ l, rep0 unicodeSpace (sp ++ s) = .ok l s := by
  induction sp with
  | nil => exact ⟨[], rep0_nil (unicodeSpace_back hs)⟩
  | cons c sp ih =>
    obtain ⟨l, hl⟩ := ih fun c hc => h c (List.mem_cons_of_mem _ hc)
    exact ⟨() :: l, rep0_cons (unicodeSpace_eq (h c List.mem_cons_self)) (by simp) hl⟩

theorem rep0_spaces_inv {s r : Str} {l : List Unit} (h : rep0 unicodeSpace s = .ok l r) :
    ∃ sp, (∀ c ∈ sp, Space c) ∧ s = sp ++ r := by
  induction rep_of_rep0 h with
  | nil => exact ⟨[], by simp, rfl⟩
  | @cons s1 s2 s3 a as h1 _ ht ih =>
    obtain ⟨sp, h2, e⟩ := ih (rep0_of_rep ht)
    obtain ⟨c, h1⟩ := void_ok.mp h1
    obtain ⟨rfl, hc⟩ := satisfy_ok.mp h1
    exact ⟨c :: sp, by simpa [isUnicodeSpace_iff.mp hc] using h2, by rw [e]; rfl⟩

theorem splitSpaces : ∀ w : Str, ∃ a b, w = a ++ b ∧ (∀ c ∈ a, Space c) ∧ ∀ c q, b = c :: q → ¬ Space c
  | [] => ⟨[], [], rfl, (by rintro _ ⟨⟩), by rintro _ _ ⟨⟩⟩
  | c :: w => by
    by_cases h : Space c
    · obtain ⟨a, b, rfl, h1, h2⟩ := splitSpaces w
      exact ⟨c :: a, b, rfl, by simpa [h] using h1, h2⟩
    · exact ⟨[], c :: w, rfl, (by rintro _ ⟨⟩), by rintro _ _ ⟨⟩; exact h⟩

theorem AtNewline.noSpace {s : Str} (h : AtNewline s) : ∀ c q, s = c :: q → ¬ Space c := by
  obtain ⟨c, q, rfl, hc⟩ := h
  rintro _ _ ⟨⟩ hs
  exact space_not_newline hs hc

/-- White space at the start of a line does not end at the closing quotes. -/
theorem raw_lead {n : Nat} {sp c s : Str} (hs : AtNewline s) (h : ∀ c ∈ sp, Space c) (h1 : ¬ Contains c (rawEnd n)) :
    ∃ l q, rep0 unicodeSpace (sp ++ (c ++ s)) = .ok l q ∧ ∀ x, q ≠ tripleQuote ++ (hashes n ++ x) := by
  obtain ⟨a, b, rfl, h2, h3⟩ := splitSpaces c
  have h4 : ∀ c q, b ++ s = c :: q → ¬ Space c := by
    cases b with
    | nil => exact hs.noSpace
    | cons d b => rintro _ _ ⟨⟩; exact h3 _ _ rfl
  have h5 : ∀ c ∈ sp ++ a, Space c := by
    intro c hc
    rcases List.mem_append.mp hc with hc | hc
    · exact h c hc
    · exact h2 c hc
  obtain ⟨l, hl⟩ := rep0_spaces h5 h4
  exact ⟨l, b ++ s, by simpa using hl, end_within hs (not_contains_suffix h1)⟩

theorem not_contains_spaces {n : Nat} {sp c : Str} (h : ∀ c ∈ sp, Space c) (h1 : ¬ Contains c (rawEnd n)) :
    ¬ Contains (sp ++ c) (rawEnd n) := by
  induction sp with
  | nil => exact h1
  | cons a sp ih =>
    rintro ⟨x, y, e⟩
    cases x with
    | nil =>
      have : a = '"' := (List.cons.inj e).1
      exact absurd (this ▸ h a List.mem_cons_self) (by decide)
    | cons b x => exact ih (fun c hc => h c (List.mem_cons_of_mem _ hc)) ⟨x, y, (List.cons.inj e).2⟩

theorem not_contains_nil {n : Nat} : ¬ Contains [] (rawEnd n) := by
  rintro ⟨x, y, e⟩
  have := congrArg List.length e
  simp [rawEnd, tripleQuote] at this

theorem newline_total (s : Str) : newline s = .back ∨ ∃ r, newline s = .ok () r := by
  cases s with
  | nil => exact Or.inl rfl
  | cons c q =>
    by_cases h : Newline c
    · exact Or.inr (newline_ok_of h)
    · exact Or.inl (not_newline h)

theorem wsEscape_total (s : Str) : wsEscape s = .back ∨ ∃ r, wsEscape s = .ok () r := by
  cases s with
  | nil => exact Or.inl rfl
  | cons c q =>
    by_cases hc : c = '\\'
    · subst hc
      by_cases hq : NoBlank q
      · exact Or.inl (wsEscape_back hq)
      · have : ∃ a b, q = a ++ b ∧ (∀ c ∈ a, Blank c) ∧ NoBlank b := by
          clear hq
          induction q with
          | nil => exact ⟨[], [], rfl, by simp, by rintro _ _ ⟨⟩⟩
          | cons d q ih =>
            by_cases hd : Blank d
            · obtain ⟨a, b, rfl, h1, h2⟩ := ih
              exact ⟨d :: a, b, rfl, by simpa [hd] using h1, h2⟩
            · exact ⟨[], d :: q, rfl, by simp, by rintro _ _ ⟨⟩; exact hd⟩
        obtain ⟨a, b, rfl, h1, h2⟩ := this
        cases a with
        | nil => exact absurd h2 hq
        | cons d a => exact Or.inr ⟨b, wsEscape_eq (by simp) h1 h2⟩
    · exact Or.inl (wsEscape_back' (by rintro _ ⟨⟩; exact hc rfl))

theorem blankItem_total (s : Str) : (wsEscape <+> unicodeSpace) s = .back ∨ ∃ r, (wsEscape <+> unicodeSpace) s = .ok () r := by
  rcases wsEscape_total s with h | ⟨r, h⟩
  · rw [alt_right h]
    cases s with
    | nil => exact Or.inl rfl
    | cons c q =>
      by_cases hc : Space c
      · exact Or.inr ⟨q, unicodeSpace_eq hc⟩
      · exact Or.inl (unicodeSpace_back (by rintro _ _ ⟨⟩; exact hc))
  · exact Or.inr ⟨r, alt_left h⟩

theorem blanks_total (s : Str) : ∃ l q, rep0 (wsEscape <+> unicodeSpace) s = .ok l q := by
  induction hn : s.length using Nat.strongRecOn generalizing s with
  | ind n ih =>
    rcases blankItem_total s with h | ⟨r, h⟩
    · exact ⟨[], s, rep0_nil h⟩
    · have hl : r.length < s.length := by
        obtain ⟨t, ht, e⟩ := (Strict.wsEscape.alt Strict.unicodeSpace) _ _ _ h
        rw [e]
        have := List.length_pos_iff.mpr ht
        simp; omega
      obtain ⟨l, q, h2⟩ := ih r.length (hn ▸ hl) r rfl
      exact ⟨() :: l, q, rep0_cons h hl h2⟩

theorem emptyLine_total (s : Str) : emptyLine s = .back ∨ ∃ r, emptyLine s = .ok () r := by
  obtain ⟨l, q, h⟩ := blanks_total s
  unfold emptyLine
  rw [bind_eq h]
  exact newline_total q

theorem line_unique {c1 c2 q1 q2 : Str} (h1 : ∀ a ∈ c1, ¬ Newline a) (h2 : ∀ a ∈ c2, ¬ Newline a)
    (hq1 : AtNewline q1) (hq2 : AtNewline q2) (h : c1 ++ q1 = c2 ++ q2) : c1 = c2 ∧ q1 = q2 := by
  induction c1 generalizing c2 with
  | nil =>
    cases c2 with
    | nil => exact ⟨rfl, h⟩
    | cons b c2 =>
      obtain ⟨d, x, rfl, hd⟩ := hq1
      exact absurd ((List.cons.inj h).1 ▸ hd) (h2 b List.mem_cons_self)
  | cons a c1 ih =>
    cases c2 with
    | nil =>
      obtain ⟨d, x, rfl, hd⟩ := hq2
      exact absurd ((List.cons.inj h).1 ▸ hd) (h1 a List.mem_cons_self)
    | cons b c2 =>
      obtain ⟨rfl, h'⟩ := List.cons.inj h
      obtain ⟨rfl, rfl⟩ := ih (fun a ha => h1 a (List.mem_cons_of_mem _ ha))
        (fun a ha => h2 a (List.mem_cons_of_mem _ ha)) h'
      exact ⟨rfl, rfl⟩

theorem emptyLine_raw {c s : Str} (hs : AtNewline s) (h0 : ∀ a ∈ c, ¬ Newline a) (h : ∃ a ∈ c, ¬ Space a) :
    emptyLine (c ++ s) = .back := by
  rcases emptyLine_total (c ++ s) with he | ⟨r, he⟩
  · exact he
  · exfalso
    obtain ⟨sp, nl, h1, h2, h3⟩ := emptyLine_inv he
    obtain ⟨rfl, _⟩ := line_unique h0 (fun a ha => space_not_newline (h1 a ha)) hs h2.at h3
    obtain ⟨a, ha, hn⟩ := h
    exact hn (h1 a ha)

theorem rawMlLine_line {n : Nat} {pre c nl s : Str} (h0 : ∀ a ∈ c, ¬ Newline a) (h1 : ¬ Contains c (rawEnd n))
    (hne : ∃ a ∈ c, ¬ Space a) (hn : NewlineSeq nl s) :
    rawMlLine (hashes n) pre (pre ++ (c ++ (nl ++ s))) = .ok (c ++ ['\n']) s := by
  have h2 := repTill_of (rawLine_forward hn.at (newline_seq hn) h0 h1)
  unfold rawLineItem at h2
  unfold rawMlLine
  rw [bind_eq (cutErr_eq (alt_left (lit_append _ _))), alt_right (bind_back (emptyLine_raw hn.at h0 hne)), bind_eq h2]
  rfl

theorem rawMlLine_empty {h pre sp nl s : Str} (hpre : ∀ c ∈ pre, Space c) (hsp : ∀ c ∈ sp, Space c) (hn : NewlineSeq nl s) :
    rawMlLine h pre (sp ++ (nl ++ s)) = .ok ['\n'] s := by
  unfold rawMlLine
  by_cases hp : ∃ x, sp ++ (nl ++ s) = pre ++ x
  · obtain ⟨x, hx⟩ := hp
    obtain ⟨sp', rfl, rfl⟩ := prefix_empty hpre hn.at hx
    rw [hx, bind_eq (cutErr_eq (alt_left (lit_append _ _)))]
    apply alt_left
    rw [bind_eq (emptyLine_eq (fun c hc => hsp c (List.mem_append_right _ hc)) hn)]
    rfl
  · have h1 : (lit pre <+> peek emptyLine) (sp ++ (nl ++ s)) = .ok () (sp ++ (nl ++ s)) := by
      rw [alt_right (lit_back.mpr fun r e => hp ⟨r, e⟩)]
      exact peek_eq (emptyLine_eq hsp hn)
    rw [bind_eq (cutErr_eq h1)]
    apply alt_left
    rw [bind_eq (emptyLine_eq hsp hn)]
    rfl

theorem peek_two_back {h s : Str} (hh : ∀ x, s ≠ tripleQuote ++ (h ++ x)) : peek (do lit tripleQuote; lit h) s = .back := by
  unfold peek
  rw [two_lits_back hh]

theorem rawBodyEnd_line {n : Nat} {pre c s : Str} (hs : AtNewline s) (h1 : ¬ Contains c (rawEnd n)) :
    rawBodyEnd (hashes n) pre (pre ++ (c ++ s)) = .back := by
  obtain ⟨l, q, h2, h3⟩ := raw_lead (sp := []) hs (by simp) h1
  unfold rawBodyEnd
  rw [bind_eq (lit_append _ _)]
  have h2' : rep0 unicodeSpace (c ++ s) = .ok l q := h2
  rw [bind_eq h2']
  exact peek_two_back h3

theorem rawBodyEnd_empty {n : Nat} {pre sp nl s : Str} (hpre : ∀ c ∈ pre, Space c) (h : ∀ c ∈ sp, Space c)
    (hn : NewlineSeq nl s) : rawBodyEnd (hashes n) pre (sp ++ (nl ++ s)) = .back := by
  by_cases hp : ∃ x, sp ++ (nl ++ s) = pre ++ x
  · obtain ⟨x, hx⟩ := hp
    obtain ⟨sp', rfl, rfl⟩ := prefix_empty hpre hn.at hx
    rw [hx]
    refine rawBodyEnd_line hn.at ?_
    have := not_contains_spaces (n := n) (sp := sp') (c := []) (fun c hc => h c (List.mem_append_right _ hc)) not_contains_nil
    simpa using this
  · exact bind_back (lit_back.mpr fun r e => hp ⟨r, e⟩)

theorem rawScanEnd_back {n : Nat} {sp c s : Str} (hs : AtNewline s) (h : ∀ c ∈ sp, Space c)
    (h1 : ¬ Contains c (rawEnd n)) : rawScanEnd (hashes n) (sp ++ (c ++ s)) = .back := by
  obtain ⟨l, q, h2, h3⟩ := raw_lead hs h h1
  unfold rawScanEnd peek
  rw [bind_eq h2, two_lits_back h3]

theorem rawScan_eq {n : Nat} {sp c nl s : Str} (hsp : ∀ c ∈ sp, Space c) (h0 : ∀ a ∈ c, ¬ Newline a ∧ ¬ Disallowed a)
    (h1 : ¬ Contains c (rawEnd n)) (hn : NewlineSeq nl s) : rawScan (hashes n) (sp ++ (c ++ (nl ++ s))) = .ok () s := by
  have h2 : ∀ a ∈ sp ++ c, ¬ Newline a ∧ ¬ Disallowed a := by
    intro a ha
    rcases List.mem_append.mp ha with ha | ha
    · exact (space_chars (hsp a ha)).2.2
    · exact h0 a ha
  have h3 := rep0_of_rep (rawScan_forward hn.at h2 (not_contains_spaces hsp h1))
  rw [List.append_assoc] at h3
  unfold rawScan
  rw [bind_eq h3]
  exact newline_seq hn

theorem rawMulti_forward {n : Nat} {pre t r : Str} {ls : List Str} (hpre : ∀ c ∈ pre, Space c)
    (h : RawMulti n pre t ls) :
    (∃ l, RepTill (rawScan (hashes n)) (rawScanEnd (hashes n)) (t ++ (tripleQuote ++ (hashes n ++ r))) l ()
      (pre ++ (tripleQuote ++ (hashes n ++ r)))) ∧
    RepTill (rawMlLine (hashes n) pre) (rawBodyEnd (hashes n) pre) (t ++ (tripleQuote ++ (hashes n ++ r)))
      (ls.map (· ++ ['\n'])) () (tripleQuote ++ (hashes n ++ r)) := by
  have happ : ∀ {nl t : Str}, NewlineSeq nl t → NewlineSeq nl (t ++ (tripleQuote ++ (hashes n ++ r))) :=
    fun hn => hn.append fun _ q e => absurd (List.cons.inj e).1 (by decide)
  have hq : ∀ c q, tripleQuote ++ (hashes n ++ r) = c :: q → ¬ Space c := by
    rintro _ _ ⟨⟩; decide
  induction h with
  | close =>
    refine ⟨⟨[], .nil ?_⟩, .nil ?_⟩
    · obtain ⟨l, hl⟩ := rep0_spaces hpre hq
      refine peek_eq (r := r) (a := ()) ?_
      rw [bind_eq hl]
      exact two_lits.mpr rfl
    · obtain ⟨l, hl⟩ := rep0_spaces (sp := []) (by simp) hq
      have hl' : rep0 unicodeSpace (tripleQuote ++ (hashes n ++ r)) = .ok l (tripleQuote ++ (hashes n ++ r)) := hl
      unfold rawBodyEnd
      rw [bind_eq (lit_append _ _), bind_eq hl']
      exact peek_eq (r := r) (two_lits.mpr rfl)
  | @empty sp nl t ls h1 h2 _ ih =>
    obtain ⟨⟨l, g1⟩, g2⟩ := ih
    have hn := happ h2
    rw [List.append_assoc, List.append_assoc]
    have hs1 := rawScanEnd_back (c := []) hn.at h1 (not_contains_nil (n := n))
    have hs2 := rawScan_eq (n := n) (c := []) h1 (by simp) not_contains_nil hn
    have hlen : (t ++ (tripleQuote ++ (hashes n ++ r))).length <
        (sp ++ (nl ++ (t ++ (tripleQuote ++ (hashes n ++ r))))).length := by
      obtain ⟨c, q, rfl, _⟩ := h2.head
      simp; omega
    exact ⟨⟨() :: l, .cons hs1 hs2 hlen g1⟩,
      .cons (rawBodyEnd_empty hpre h1 hn) (rawMlLine_empty hpre h1 hn) hlen g2⟩
  | @line c nl t ls h0 h1 h2 h3 _ ih =>
    obtain ⟨⟨l, g1⟩, g2⟩ := ih
    have hn := happ h3
    rw [List.append_assoc, List.append_assoc, List.append_assoc]
    have hlen : (t ++ (tripleQuote ++ (hashes n ++ r))).length <
        (pre ++ (c ++ (nl ++ (t ++ (tripleQuote ++ (hashes n ++ r)))))).length := by
      obtain ⟨c, q, rfl, _⟩ := h3.head
      simp; omega
    exact ⟨⟨() :: l, .cons (rawScanEnd_back hn.at hpre h1) (rawScan_eq hpre h0 h1 hn) hlen g1⟩,
      .cons (rawBodyEnd_line hn.at h1) (rawMlLine_line (fun a ha => (h0 a ha).1) h1 h2 hn) hlen g2⟩

theorem rawMlPrefix_eq {n : Nat} {pre t r : Str} {ls : List Str} (hpre : ∀ c ∈ pre, Space c)
    (h : RawMulti n pre t ls) :
    rawMlPrefix (hashes n) (t ++ (tripleQuote ++ (hashes n ++ r))) = .ok pre (t ++ (tripleQuote ++ (hashes n ++ r))) := by
  obtain ⟨⟨l, h1⟩, _⟩ := rawMulti_forward (r := r) hpre h
  unfold rawMlPrefix
  refine peek_eq (r := r) ?_
  have h1' := repTill_of h1
  unfold rawScan rawScanEnd rawScanItem at h1'
  rw [bind_eq h1']
  obtain ⟨l', hl⟩ := rep0_spaces (s := tripleQuote ++ (hashes n ++ r)) hpre (by rintro _ _ ⟨⟩; decide)
  rw [bind_eq (takeP_eq hl), bind_eq (lit_append _ _), bind_eq (lit_append _ _)]
  rfl

theorem rawMlBody_eq {n : Nat} {pre t r : Str} {ls : List Str} (hpre : ∀ c ∈ pre, Space c) (h : RawMulti n pre t ls) :
    rawMlBody (hashes n) pre (t ++ (tripleQuote ++ (hashes n ++ r))) =
      .ok (joinLines ls) (tripleQuote ++ (hashes n ++ r)) := by
  obtain ⟨_, h1⟩ := rawMulti_forward (r := r) hpre h
  unfold rawMlBody
  have h1' := repTill_of h1
  unfold rawBodyEnd at h1'
  rw [bind_eq h1', ← joinLines_eq]
  rfl

/-- A multi-line raw string is read as its lines, but rejected if its value is a
single quote. -/
theorem rawString_multi {n : Nat} {nl pre t r : Str} {ls : List Str} (h0 : NewlineSeq nl t) (hpre : ∀ c ∈ pre, Space c)
    (h : RawMulti (n + 1) pre t ls) :
    rawString (hashes (n + 1) ++ (tripleQuote ++ (nl ++ (t ++ (tripleQuote ++ (hashes (n + 1) ++ r)))))) =
      if joinLines ls = ['"'] then .cut else .ok (joinLines ls) r := by
  have hn : NewlineSeq nl (t ++ (tripleQuote ++ (hashes (n + 1) ++ r))) :=
    h0.append fun _ q e => absurd (List.cons.inj e).1 (by decide)
  unfold rawString
  have e1 : takeP (rep1 (lit ['#'])) (hashes (n + 1) ++ (tripleQuote ++ (nl ++ (t ++ (tripleQuote ++ (hashes (n + 1) ++ r)))))) =
    .ok (hashes (n + 1)) (tripleQuote ++ (nl ++ (t ++ (tripleQuote ++ (hashes (n + 1) ++ r))))) := hashes_eq n _
  rw [bind_eq e1, bind_eq (a := true) (r := t ++ (tripleQuote ++ (hashes (n + 1) ++ r)))]
  · simp only [if_true]
    rw [bind_eq (rawMlPrefix_eq hpre h), bind_eq (rawMlBody_eq hpre h), bind_eq (cutErr_eq (r := r) (a := ()) (two_lits.mpr rfl))]
    by_cases e : joinLines ls = ['"']
    · rw [if_pos e, if_pos e]; rfl
    · rw [if_neg e, if_neg e]; rfl
  · apply alt_left
    rw [bind_eq (lit_append _ _), bind_eq (newline_seq hn)]
    rfl

theorem newline_of_cons {c : Char} {q r : Str} {u : Unit} (h : newline (c :: q) = .ok u r) : Newline c := by
  obtain ⟨nl, e, hn⟩ := newline_seq_inv h
  obtain ⟨d, x, rfl, hd⟩ := hn.head
  rw [(List.cons.inj e).1]
  exact hd

/-- A single-line raw string is read verbatim. -/
theorem rawString_single {n : Nat} {body r : Str} (h : RawBody (n + 1) body) :
    rawString (hashes (n + 1) ++ '"' :: (body ++ '"' :: (hashes (n + 1) ++ r))) = .ok body r := by
  unfold rawString
  rw [bind_eq (hashes_eq n _), bind_eq (a := false) (r := body ++ '"' :: (hashes (n + 1) ++ r))]
  · simp only [Bool.false_eq_true, if_false]
    have e : rawSlBody (hashes (n + 1)) (body ++ '"' :: (hashes (n + 1) ++ r)) = .ok body ('"' :: (hashes (n + 1) ++ r)) := by
      have := repTill_of (raw_forward (r := r) h.1 h.2.1)
      unfold rawItem at this
      unfold rawSlBody
      rw [bind_eq this]
      rfl
    have e2 : cutErr (do lit ['"']; lit (hashes (n + 1)) : P Unit) ('"' :: (hashes (n + 1) ++ r)) = .ok () r :=
      cutErr_eq (two_lits.mpr rfl)
    rw [bind_eq e, bind_eq e2, if_neg h.2.2]
    rfl
  · have hb : (do lit tripleQuote; newline; return true : P Bool) ('"' :: (body ++ '"' :: (hashes (n + 1) ++ r))) = .back := by
      cases hl : lit tripleQuote ('"' :: (body ++ '"' :: (hashes (n + 1) ++ r))) with
      | ok u q =>
        rw [bind_eq hl]
        refine bind_back ?_
        have e := lit_ok.mp hl
        have e := (List.cons.inj e).2
        refine newline_back fun c x hq => ?_
        subst hq
        rcases body with _ | ⟨b, _ | ⟨b2, body⟩⟩
        · have := (List.cons.inj e).2
          exact absurd (List.cons.inj this).1 (by decide)
        · have e2 := (List.cons.inj (List.cons.inj e).2).2
          rw [hashes_succ] at e2
          have : '#' = c := (List.cons.inj e2).1
          rw [← this]; decide
        · have e2 := (List.cons.inj (List.cons.inj e).2).2
          have e2 : body ++ '"' :: (hashes (n + 1) ++ r) = c :: x := e2
          cases body with
          | nil =>
            have : '"' = c := (List.cons.inj e2).1
            rw [← this]; decide
          | cons d body =>
            have : d = c := (List.cons.inj e2).1
            rw [← this]
            exact (h.1 d (by simp)).1
      | back => exact bind_back hl
      | cut => unfold lit at hl; split at hl <;> cases hl
      | crash => unfold lit at hl; split at hl <;> cases hl
    rw [alt_right hb, bind_eq (lit_one _ _)]
    rfl

/-! ### Backwards -/

theorem rawScanItem_inv {h s r : Str} {c : Char} (hh : rawScanItem h s = .ok c r) :
    s = c :: r ∧ ¬ Newline c ∧ ¬ Disallowed c := by
  unfold rawScanItem at hh
  rw [bind_ok] at hh
  obtain ⟨_, q, h1, hh⟩ := hh
  obtain ⟨rfl, h1⟩ := notP_ok.mp h1
  rw [bind_ok] at hh
  obtain ⟨_, q, h2, hh⟩ := hh
  obtain ⟨rfl, h2⟩ := notP_ok.mp h2
  rw [bind_ok] at hh
  obtain ⟨_, q, h3, hh⟩ := hh
  obtain ⟨rfl, h3⟩ := notP_ok.mp h3
  have e := anyChar_inv hh
  exact ⟨e, newline_not h1 _ _ e, disallowed_not h2 _ _ e⟩

theorem rawScan_inv {h s r : Str} {u : Unit} (hh : rawScan h s = .ok u r) :
    ∃ c q, s = c ++ q ∧ AtNewline q ∧ newline q = .ok () r ∧ ∀ a ∈ c, ¬ Newline a ∧ ¬ Disallowed a := by
  unfold rawScan at hh
  rw [bind_ok] at hh
  obtain ⟨l, q, h1, h2⟩ := hh
  obtain ⟨nl, e, hn⟩ := newline_seq_inv h2
  have key : ∀ {s q : Str} {l : List Char}, Rep (rawScanItem h) s l q → s = l ++ q ∧ ∀ a ∈ l, ¬ Newline a ∧ ¬ Disallowed a := by
    intro s q l hR
    induction hR with
    | nil => exact ⟨rfl, by simp⟩
    | @cons s1 s2 s3 a as h1 _ ht ih =>
      obtain ⟨rfl, h3⟩ := ih
      obtain ⟨rfl, h4, h5⟩ := rawScanItem_inv h1
      refine ⟨rfl, ?_⟩
      intro x hx
      rcases List.mem_cons.mp hx with rfl | hx
      · exact ⟨h4, h5⟩
      · exact h3 x hx
  obtain ⟨rfl, h3⟩ := key (rep_of_rep0 h1)
  exact ⟨l, q, rfl, e ▸ hn.at, h2, h3⟩

theorem rawLineItem_inv {h s r : Str} {c : Char} (hh : rawLineItem h s = .ok c r) :
    s = c :: r ∧ ¬ Newline c ∧ ∀ x, s ≠ tripleQuote ++ (h ++ x) := by
  unfold rawLineItem at hh
  rw [bind_ok] at hh
  obtain ⟨_, q, h1, hh⟩ := hh
  obtain ⟨rfl, h1⟩ := notP_ok.mp h1
  rw [bind_ok] at hh
  obtain ⟨_, q, h3, hh⟩ := hh
  obtain ⟨rfl, h3⟩ := notP_ok.mp h3
  have e := anyChar_inv hh
  exact ⟨e, newline_not h1 _ _ e, two_lits_not h3⟩

theorem rawLine_inv {n : Nat} {s r : Str} {l : List Char} {u : Unit}
    (hh : RepTill (rawLineItem (hashes n)) newline s l u r) :
    ∃ nl, s = l ++ (nl ++ r) ∧ NewlineSeq nl r ∧ (∀ a ∈ l, ¬ Newline a) ∧ ¬ Contains l (rawEnd n) := by
  induction hh with
  | nil hp =>
    obtain ⟨nl, rfl, hn⟩ := newline_seq_inv hp
    exact ⟨nl, rfl, hn, by simp, not_contains_nil⟩
  | @cons s q r a as b he hi hl ht ih =>
    obtain ⟨nl, rfl, h2, h3, h4⟩ := ih
    obtain ⟨rfl, g1, g3⟩ := rawLineItem_inv hi
    refine ⟨nl, rfl, h2, ?_, ?_⟩
    · intro x hx
      rcases List.mem_cons.mp hx with rfl | hx
      · exact g1
      · exact h3 x hx
    · rintro ⟨x, y, e⟩
      cases x with
      | nil =>
        refine g3 (y ++ (nl ++ r)) ?_
        rw [← List.cons_append, e]
        simp [rawEnd]
      | cons z x => exact h4 ⟨x, y, (List.cons.inj e).2⟩

theorem rawMlLine_inv {n : Nat} {pre s r v : Str} (hpre : ∀ c ∈ pre, Space c) (h : rawMlLine (hashes n) pre s = .ok v r) :
    (v = ['\n'] ∧ ∃ sp nl, (∀ c ∈ sp, Space c) ∧ NewlineSeq nl r ∧ s = sp ++ (nl ++ r)) ∨
    ∃ c nl, v = c ++ ['\n'] ∧ (∀ a ∈ c, ¬ Newline a) ∧ ¬ Contains c (rawEnd n) ∧ (∃ a ∈ c, ¬ Space a) ∧
      NewlineSeq nl r ∧ s = pre ++ (c ++ (nl ++ r)) := by
  unfold rawMlLine at h
  rw [bind_ok] at h
  obtain ⟨_, q, h1, h⟩ := h
  rw [cutErr_ok] at h1
  rcases alt_ok.mp h with h | ⟨hb, h⟩
  · rw [bind_ok] at h
    obtain ⟨_, q', h2, h⟩ := h
    obtain ⟨rfl, rfl⟩ := pure_ok.mp h
    obtain ⟨sp, nl, g1, g2, rfl⟩ := emptyLine_inv h2
    refine Or.inl ⟨rfl, ?_⟩
    rcases alt_ok.mp h1 with h1 | ⟨_, h1⟩
    · have := lit_ok.mp h1
      subst this
      refine ⟨pre ++ sp, nl, ?_, g2, by simp⟩
      intro c hc
      rcases List.mem_append.mp hc with hc | hc
      · exact hpre c hc
      · exact g1 c hc
    · obtain ⟨h1, _⟩ := peek_ok.mp h1
      exact ⟨sp, nl, g1, g2, h1.symm⟩
  · rw [bind_ok] at h
    obtain ⟨⟨l, u⟩, q', h2, h⟩ := h
    obtain ⟨rfl, rfl⟩ := pure_ok.mp h
    obtain ⟨nl, rfl, g2, g3, g4⟩ := rawLine_inv (n := n) (repTill_inv h2)
    have hb' : emptyLine (l ++ (nl ++ r)) = .back := by
      rcases emptyLine_total (l ++ (nl ++ r)) with he | ⟨q, he⟩
      · exact he
      · rw [bind_eq he] at hb; cases hb
    refine Or.inr ⟨l, nl, rfl, g3, g4, ?_, g2, ?_⟩
    · refine Classical.byContradiction fun hn => ?_
      have : ∀ c ∈ l, Space c := fun c hc => Classical.byContradiction fun hs => hn ⟨c, hc, hs⟩
      rw [emptyLine_eq this g2] at hb'
      cases hb'
    · rcases alt_ok.mp h1 with h1 | ⟨_, h1⟩
      · exact lit_ok.mp h1
      · obtain ⟨e, q', h1⟩ := peek_ok.mp h1
        rw [← e, hb'] at h1
        cases h1

theorem rawBodyEnd_inv {h pre s r : Str} {u : Unit} (hh : rawBodyEnd h pre s = .ok u r) :
    ∃ sp q, (∀ c ∈ sp, Space c) ∧ s = pre ++ (sp ++ r) ∧ r = tripleQuote ++ (h ++ q) := by
  unfold rawBodyEnd at hh
  rw [bind_ok] at hh
  obtain ⟨_, q, h1, hh⟩ := hh
  rw [bind_ok] at hh
  obtain ⟨_, q', h2, hh⟩ := hh
  obtain ⟨rfl, q'', h3⟩ := peek_ok.mp hh
  obtain ⟨sp, h4, rfl⟩ := rep0_spaces_inv h2
  exact ⟨sp, q'', h4, lit_ok.mp h1, two_lits.mp h3⟩

theorem rawScanEnd_ok {h sp r : Str} (hsp : ∀ c ∈ sp, Space c) :
    rawScanEnd h (sp ++ (tripleQuote ++ (h ++ r))) = .ok () (sp ++ (tripleQuote ++ (h ++ r))) := by
  obtain ⟨l, hl⟩ := rep0_spaces (s := tripleQuote ++ (h ++ r)) hsp (by rintro _ _ ⟨⟩; decide)
  refine peek_eq (r := r) (a := ()) ?_
  rw [bind_eq hl]
  exact two_lits.mpr rfl

theorem append_quote_unique {a b x y : Str} (ha : ∀ c ∈ a, Space c) (hb : ∀ c ∈ b, Space c)
    (h : a ++ '"' :: x = b ++ '"' :: y) : a = b ∧ x = y := by
  induction a generalizing b with
  | nil =>
    cases b with
    | nil => exact ⟨rfl, (List.cons.inj h).2⟩
    | cons c b =>
      have : '"' = c := (List.cons.inj h).1
      exact absurd (hb c List.mem_cons_self) (this ▸ by decide)
  | cons c a ih =>
    cases b with
    | nil =>
      have : c = '"' := (List.cons.inj h).1
      exact absurd (ha c List.mem_cons_self) (this ▸ by decide)
    | cons d b =>
      obtain ⟨rfl, h'⟩ := List.cons.inj h
      obtain ⟨rfl, rfl⟩ := ih (fun c hc => ha c (List.mem_cons_of_mem _ hc))
        (fun c hc => hb c (List.mem_cons_of_mem _ hc)) h'
      exact ⟨rfl, rfl⟩

theorem rawMulti_inv {n : Nat} {pre s r x r' : Str} {l : List Unit} {m : List Str} {u u' : Unit}
    (hpre : ∀ c ∈ pre, Space c) (h : RepTill (rawScan (hashes n)) (rawScanEnd (hashes n)) s l u r)
    (hr : r = pre ++ (tripleQuote ++ (hashes n ++ x)))
    (hb : RepTill (rawMlLine (hashes n) pre) (rawBodyEnd (hashes n) pre) s m u' r') :
    ∃ t ls, s = t ++ r' ∧ r' = tripleQuote ++ (hashes n ++ x) ∧ m = ls.map (· ++ ['\n']) ∧ RawMulti n pre t ls := by
  induction h generalizing m with
  | @nil s r _ h =>
    obtain ⟨rfl, _⟩ := peek_ok.mp h
    subst hr
    cases hb with
    | nil hb =>
      obtain ⟨sp, q, h1, h2, h3⟩ := rawBodyEnd_inv hb
      have h2' := List.append_cancel_left h2
      rw [h3] at h2'
      have h4 := append_quote_unique (a := []) (by simp) h1 h2'
      subst h3
      refine ⟨pre, [], by rw [h2, ← h4.1]; rfl, ?_, rfl, .close⟩
      rw [h2', ← h4.1]; rfl
    | cons he =>
      exfalso
      obtain ⟨l, hl⟩ := rep0_spaces (sp := []) (s := tripleQuote ++ (hashes n ++ x)) (by simp) (by rintro _ _ ⟨⟩; decide)
      have hl' : rep0 unicodeSpace (tripleQuote ++ (hashes n ++ x)) = .ok l (tripleQuote ++ (hashes n ++ x)) := hl
      have : rawBodyEnd (hashes n) pre (pre ++ (tripleQuote ++ (hashes n ++ x))) = .ok () (tripleQuote ++ (hashes n ++ x)) := by
        unfold rawBodyEnd
        rw [bind_eq (lit_append _ _), bind_eq hl']
        exact peek_eq (r := x) (two_lits.mpr rfl)
      rw [this] at he
      cases he
  | @cons s q r a as b he hi hl ht ih =>
    cases hb with
    | nil hb =>
      exfalso
      obtain ⟨sp, q', h1, h2, h3⟩ := rawBodyEnd_inv hb
      have : rawScanEnd (hashes n) s = .ok () s := by
        rw [h2, h3, ← List.append_assoc]
        refine rawScanEnd_ok ?_
        intro c hc
        rcases List.mem_append.mp hc with hc | hc
        · exact hpre c hc
        · exact h1 c hc
      rw [this] at he
      cases he
    | @cons _ q2 _ v vs _ he2 hi2 hl2 ht2 =>
      obtain ⟨c1, p1, e1, hp1, hn1, hc1⟩ := rawScan_inv hi
      have hcut : ∀ {nl t : Str}, NewlineSeq nl (t ++ r') → NewlineSeq nl t := by
        rintro nl t (rfl | ⟨c, rfl, hc, h⟩)
        · exact Or.inl rfl
        · refine Or.inr ⟨c, rfl, hc, ?_⟩
          rintro e q rfl
          exact h e _ rfl
      rcases rawMlLine_inv hpre hi2 with ⟨rfl, sp, nl, g1, g2, e2⟩ | ⟨c, nl, rfl, g1, g2, g3, g4, e2⟩
      · obtain ⟨rfl, rfl⟩ := line_unique (fun a ha => (hc1 a ha).1) (fun a ha => space_not_newline (g1 a ha)) hp1 g2.at
          (e1.symm.trans e2)
        rw [newline_seq g2] at hn1
        cases hn1
        obtain ⟨t, ls, rfl, h2, rfl, h4⟩ := ih hr ht2
        exact ⟨c1 ++ (nl ++ t), [] :: ls, by rw [e2]; simp, h2, rfl, .empty g1 (hcut g2) h4⟩
      · have hsp : ∀ a ∈ pre ++ c, ¬ Newline a := by
          intro a ha
          rcases List.mem_append.mp ha with ha | ha
          · exact space_not_newline (hpre a ha)
          · exact g1 a ha
        obtain ⟨rfl, rfl⟩ := line_unique (fun a ha => (hc1 a ha).1) hsp hp1 g4.at
          (by rw [← e1, e2]; simp)
        rw [newline_seq g4] at hn1
        cases hn1
        obtain ⟨t, ls, rfl, h2, rfl, h4⟩ := ih hr ht2
        exact ⟨pre ++ (c ++ (nl ++ t)), c :: ls, by rw [e2]; simp, h2, rfl,
          .line (fun a ha => hc1 a (List.mem_append_right _ ha)) g2 g3 (hcut g4) h4⟩

/-- What raw strings look like. -/
theorem rawString_inv {s r v : Str} (h : rawString s = .ok v r) :
    (∃ n, RawBody (n + 1) v ∧ s = hashes (n + 1) ++ '"' :: (v ++ '"' :: (hashes (n + 1) ++ r))) ∨
    ∃ n nl pre t ls, NewlineSeq nl t ∧ (∀ c ∈ pre, Space c) ∧ RawMulti (n + 1) pre t ls ∧ v = joinLines ls ∧
      v ≠ ['"'] ∧
      s = hashes (n + 1) ++ (tripleQuote ++ (nl ++ (t ++ (tripleQuote ++ (hashes (n + 1) ++ r))))) := by
  unfold rawString at h
  rw [bind_ok] at h
  obtain ⟨hs, q0, h0, h⟩ := h
  obtain ⟨n, rfl, e0⟩ := hashes_inv h0
  rw [bind_ok] at h
  obtain ⟨b, q, h1, h⟩ := h
  rcases alt_ok.mp h1 with h1 | ⟨_, h1⟩
  · right
    rw [bind_ok] at h1
    obtain ⟨_, q1, h2, h1⟩ := h1
    rw [bind_ok] at h1
    obtain ⟨_, q2, h3, h1⟩ := h1
    obtain ⟨rfl, rfl⟩ := pure_ok.mp h1
    simp only [if_true] at h
    rw [bind_ok] at h
    obtain ⟨pre, q3, h4, h⟩ := h
    rw [bind_ok] at h
    obtain ⟨body, q4, h5, h⟩ := h
    rw [bind_ok] at h
    obtain ⟨_, q5, h6, h⟩ := h
    have hbody : body ≠ ['"'] ∧ v = body ∧ r = q5 := by
      split at h
      · cases h
      · rename_i hne
        obtain ⟨rfl, rfl⟩ := pure_ok.mp h
        exact ⟨hne, rfl, rfl⟩
    obtain ⟨hne, rfl, rfl⟩ := hbody
    unfold rawMlPrefix at h4
    obtain ⟨rfl, x, h4⟩ := peek_ok.mp h4
    rw [bind_ok] at h4
    obtain ⟨⟨l, u⟩, q6, h7, h4⟩ := h4
    rw [bind_ok] at h4
    obtain ⟨p, q7, h8, h4⟩ := h4
    rw [bind_ok] at h4
    obtain ⟨_, q8, h9, h4⟩ := h4
    rw [bind_ok] at h4
    obtain ⟨_, q9, h10, h4⟩ := h4
    obtain ⟨rfl, rfl⟩ := pure_ok.mp h4
    obtain ⟨e8, a, h8⟩ := takeP_inv Strict.unicodeSpace.sfx.rep0 h8
    obtain ⟨sp, hsp, e8'⟩ := rep0_spaces_inv h8
    have hp : sp = pre := List.append_cancel_right (e8'.symm.trans e8)
    subst hp
    unfold rawMlBody at h5
    rw [bind_ok] at h5
    obtain ⟨⟨m, u'⟩, q10, h11, h5⟩ := h5
    obtain ⟨rfl, rfl⟩ := pure_ok.mp h5
    have hq6 : q6 = sp ++ (tripleQuote ++ (hashes (n + 1) ++ x)) := by
      rw [e8, lit_ok.mp h9, lit_ok.mp h10]
    obtain ⟨t, ls, rfl, h13, rfl, hm⟩ := rawMulti_inv hsp (repTill_inv h7) hq6 (repTill_inv h11)
    rw [cutErr_ok] at h6
    have e3 := two_lits.mp h6
    obtain ⟨nl, e4, hn⟩ := newline_seq_inv h3
    refine ⟨n, nl, sp, t, ls, ?_, hsp, hm, joinLines_eq ls, hne, ?_⟩
    · rcases hn with rfl | ⟨c, rfl, hc, h⟩
      · exact Or.inl rfl
      · refine Or.inr ⟨c, rfl, hc, ?_⟩
        rintro e q rfl
        exact h e _ rfl
    · rw [e0, lit_ok.mp h2, e4, e3]
  · left
    rw [bind_ok] at h1
    obtain ⟨_, q1, h2, h1⟩ := h1
    obtain ⟨rfl, rfl⟩ := pure_ok.mp h1
    simp only [Bool.false_eq_true, if_false] at h
    rw [bind_ok] at h
    obtain ⟨body, q4, h5, h⟩ := h
    rw [bind_ok] at h
    obtain ⟨_, q5, h6, h⟩ := h
    have hbody : body ≠ ['"'] ∧ v = body ∧ r = q5 := by
      split at h
      · cases h
      · rename_i hne
        obtain ⟨rfl, rfl⟩ := pure_ok.mp h
        exact ⟨hne, rfl, rfl⟩
    obtain ⟨hne, rfl, rfl⟩ := hbody
    unfold rawSlBody at h5
    rw [bind_ok] at h5
    obtain ⟨⟨l, u⟩, q6, h7, h5⟩ := h5
    obtain ⟨rfl, rfl⟩ := pure_ok.mp h5
    obtain ⟨rfl, ⟨x, e5⟩, h8, h9⟩ := raw_inv (repTill_inv h7)
    rw [cutErr_ok] at h6
    refine ⟨n, ⟨h8, h9, hne⟩, ?_⟩
    rw [e0, lit_ok.mp h2, two_lits.mp h6]
    rfl

/-! ### All strings -/

theorem identString_hash (q : Str) : identifierString ('#' :: q) = .back :=
  identString_back (by rintro _ _ ⟨⟩; decide)

theorem identString_quote (q : Str) : identifierString ('"' :: q) = .back :=
  identString_back (by rintro _ _ ⟨⟩; decide)

theorem stringP_raw {s r v : Str} (h : rawString s = .ok v r) (hs : ∃ q, s = '#' :: q) (hr : Ends r) :
    stringP s = .ok v r := by
  obtain ⟨q, rfl⟩ := hs
  unfold stringP
  rw [alt_right (bind_back (identString_hash q))]
  apply alt_left
  rw [bind_eq h, bind_eq hr.check]
  rfl

/-- The texts that are read as strings, and their values. -/
theorem stringP_iff {s v r : Str} : stringP s = .ok v r ↔ ∃ t, s = t ++ r ∧ StrText t v ∧ Ends r := by
  constructor
  · intro h
    unfold stringP at h
    have fin : ∀ {p : P Str} {s v r : Str}, (do let s ← p; valueTerminatorCheck; return s : P Str) s = .ok v r →
        p s = .ok v r ∧ Ends r := by
      intro p s v r h
      rw [bind_ok] at h
      obtain ⟨_, q, h1, h⟩ := h
      rw [bind_ok] at h
      obtain ⟨_, q', h2, h⟩ := h
      obtain ⟨rfl, rfl⟩ := pure_ok.mp h
      obtain ⟨h2, rfl⟩ := check_ok h2
      exact ⟨h1, h2⟩
    rcases alt_ok.mp h with h | ⟨_, h⟩
    · obtain ⟨h1, h2⟩ := fin h
      obtain ⟨rfl, h3, _⟩ := identString_inv h1
      exact ⟨v, rfl, .bare h3, h2⟩
    rcases alt_ok.mp h with h | ⟨_, h⟩
    · obtain ⟨h1, h2⟩ := fin h
      rcases rawString_inv h1 with ⟨n, h3, rfl⟩ | ⟨n, nl, pre, t, ls, h3, h4, h5, rfl, h7, rfl⟩
      · exact ⟨_, by simp, .raw (n := n) h3, h2⟩
      · exact ⟨_, by simp [tripleQuote], .rawMulti (n := n) h3 h4 h5 h7, h2⟩
    · obtain ⟨h1, h2⟩ := fin h
      rcases quotedString_inv h1 with ⟨t, h3, rfl⟩ | ⟨nl, pre, t, ls, h3, h4, h5, rfl, rfl⟩
      · exact ⟨_, by simp, .quoted h3, h2⟩
      · exact ⟨_, by simp [tripleQuote], .multi h3 h4 h5, h2⟩
  · rintro ⟨t, rfl, h, hr⟩
    cases h with
    | bare h => exact stringP_bare h hr
    | quoted h =>
      rename_i t
      have e : '"' :: (t ++ ['"']) ++ r = '"' :: (t ++ '"' :: r) := by simp
      rw [e]
      exact stringP_quoted h hr
    | @multi nl pre t ls h0 h1 h =>
      have e : '"' :: '"' :: '"' :: (nl ++ (t ++ ['"', '"', '"'])) ++ r =
          tripleQuote ++ (nl ++ (t ++ (tripleQuote ++ r))) := by simp [tripleQuote]
      rw [e]
      unfold stringP
      have e1 : identifierString (tripleQuote ++ (nl ++ (t ++ (tripleQuote ++ r)))) = .back := identString_quote _
      rw [alt_right (bind_back e1), alt_right (bind_back (rawString_back (by rintro q ⟨⟩))),
        bind_eq (quotedString_multi h0 h1 h), bind_eq hr.check]
      rfl
    | @raw n body h =>
      have e : hashes (n + 1) ++ '"' :: (v ++ '"' :: hashes (n + 1)) ++ r =
          hashes (n + 1) ++ '"' :: (v ++ '"' :: (hashes (n + 1) ++ r)) := by simp
      rw [e]
      exact stringP_raw (rawString_single h) ⟨_, rfl⟩ hr
    | @rawMulti n nl pre t ls h0 h1 h h2 =>
      have e : hashes (n + 1) ++ '"' :: '"' :: '"' :: (nl ++ (t ++ '"' :: '"' :: '"' :: hashes (n + 1))) ++ r =
          hashes (n + 1) ++ (tripleQuote ++ (nl ++ (t ++ (tripleQuote ++ (hashes (n + 1) ++ r))))) := by simp [tripleQuote]
      rw [e]
      refine stringP_raw ?_ ⟨_, rfl⟩ hr
      rw [rawString_multi h0 h1 h, if_neg h2]

/-- Whether a text is read as a string does not depend on what follows it. -/
theorem stringP_local {t v r : Str} (h : stringP (t ++ r) = .ok v r) {r' : Str} (hr : Ends r') :
    stringP (t ++ r') = .ok v r' := by
  obtain ⟨t', e, h1, _⟩ := stringP_iff.mp h
  have := List.append_cancel_right e
  subst this
  exact stringP_iff.mpr ⟨t, rfl, h1, hr⟩

theorem check_cut {r : Str} (h : ¬ Ends r) : valueTerminatorCheck r = .cut := by
  cases hc : valueTerminatorCheck r with
  | ok u q => exact absurd (check_ok hc).1 h
  | cut => rfl
  | back => exact absurd hc (NoBack.cutErr _ r)
  | crash => exact absurd hc (OkTo.valueTerminatorCheck (r.length + 1) r (Nat.lt_succ_self _))

/-- A string that is not followed by what may follow a value is a fatal error. -/
theorem stringP_cut {t v r : Str} (h : StrText t v) (hs : Stop r) (hr : ¬ Ends r) (hq : ∀ q, r ≠ '"' :: q) :
    stringP (t ++ r) = .cut := by
  have hc := check_cut hr
  have hraw : ∀ {x : Str}, rawString ('#' :: x) = .ok v r → stringP ('#' :: x) = .cut := by
    intro x hx
    unfold stringP
    rw [alt_right (bind_back (identString_hash _))]
    apply alt_cut
    rw [bind_eq hx]
    exact bind_cut hc
  cases h with
  | bare h =>
    unfold stringP
    apply alt_cut
    rw [bind_eq (identString_eq h hs)]
    exact bind_cut hc
  | quoted h =>
    rename_i t
    have e : '"' :: (t ++ ['"']) ++ r = '"' :: (t ++ '"' :: r) := by simp
    rw [e]
    unfold stringP
    rw [alt_right (bind_back (identString_quote _)), alt_right (bind_back (rawString_back (by rintro q ⟨⟩))),
      bind_eq (quotedString_eq h hq)]
    exact bind_cut hc
  | @multi nl pre t ls h0 h1 h =>
    have e : '"' :: '"' :: '"' :: (nl ++ (t ++ ['"', '"', '"'])) ++ r =
        tripleQuote ++ (nl ++ (t ++ (tripleQuote ++ r))) := by simp [tripleQuote]
    rw [e]
    unfold stringP
    have e1 : identifierString (tripleQuote ++ (nl ++ (t ++ (tripleQuote ++ r)))) = .back := identString_quote _
    rw [alt_right (bind_back e1), alt_right (bind_back (rawString_back (by rintro q ⟨⟩))),
      bind_eq (quotedString_multi h0 h1 h)]
    exact bind_cut hc
  | @raw n body h =>
    have e : hashes (n + 1) ++ '"' :: (v ++ '"' :: hashes (n + 1)) ++ r =
        hashes (n + 1) ++ '"' :: (v ++ '"' :: (hashes (n + 1) ++ r)) := by simp
    rw [e]
    exact hraw (rawString_single h)
  | @rawMulti n nl pre t ls h0 h1 h h2 =>
    have e : hashes (n + 1) ++ '"' :: '"' :: '"' :: (nl ++ (t ++ '"' :: '"' :: '"' :: hashes (n + 1))) ++ r =
        hashes (n + 1) ++ (tripleQuote ++ (nl ++ (t ++ (tripleQuote ++ (hashes (n + 1) ++ r))))) := by simp [tripleQuote]
    rw [e]
    apply hraw
    have := rawString_multi (r := r) h0 h1 h
    rw [if_neg h2] at this
    exact this

end Kdl
