import Verif.Lemmas.Parser.Print
import Verif.Spec.Data
/-
Texts that are read back as given data whatever follows them: entries, nodes and
documents.
-/

namespace Kdl
open Spec

section
variable [FloatIO]

/-! ### Where entries, nodes and documents stop -/

omit [FloatIO] in
/-- What follows the entries of a node and the space after them: the end of the
text, a brace, or a terminator. -/
def Wall (x : Str) : Prop :=
  x = [] ∨ (∃ q, x = '{' :: q) ∨ (∃ q, x = '}' :: q) ∨ ∃ u q, nodeTerminator x = .ok u q

omit [FloatIO] in
theorem Wall.head {x : Str} (h : Wall x) {c : Char} {q : Str} (e : x = c :: q) :
    c = '{' ∨ c = '}' ∨ c = ';' ∨ Newline c ∨ (c = '/' ∧ ∃ q', q = '/' :: q') := by
  rcases h with h | ⟨q', h⟩ | ⟨q', h⟩ | ⟨u, q', h⟩
  · rw [h] at e; cases e
  · rw [h] at e; cases e; exact Or.inl rfl
  · rw [h] at e; cases e; exact Or.inr (Or.inl rfl)
  · obtain ⟨c', q1, e', hc⟩ := nodeTerminator_head h
    rw [e] at e'
    cases e'
    rcases hc with rfl | hc | ⟨rfl, q2, rfl⟩
    · exact Or.inr (Or.inr (Or.inl rfl))
    · exact Or.inr (Or.inr (Or.inr (Or.inl (newlineStart_iff.mp hc))))
    · exact Or.inr (Or.inr (Or.inr (Or.inr ⟨rfl, q2, rfl⟩)))

omit [FloatIO] in
theorem newline_facts {c : Char} (h : Newline c) :
    c ≠ '/' ∧ c ≠ '\\' ∧ c ≠ '(' ∧ c ≠ '=' ∧ c ≠ '#' ∧ c ≠ '"' ∧ c ≠ '+' ∧ c ≠ '-' ∧ c ≠ '{' ∧ c ≠ '}' ∧
      ¬ IdentChar c ∧ isDecDigit c = false ∧ ¬ Space c := by
  have h1 : ¬ IdentChar c := fun hi => hi.2.1 h
  have h2 : isDecDigit c = false := by
    cases hd : isDecDigit c
    · rfl
    · exact absurd (isDisallowedIdentChar_iff.mp (hex_not_disallowed (hex_of_dec hd))) h1
  refine ⟨?_, ?_, ?_, ?_, ?_, ?_, ?_, ?_, ?_, ?_, h1, h2, fun hs => space_not_newline hs h⟩ <;>
    · rintro rfl; revert h; decide

omit [FloatIO] in
theorem Wall.facts {x : Str} (h : Wall x) {c : Char} {q : Str} (e : x = c :: q) :
    c ≠ '\\' ∧ c ≠ '(' ∧ c ≠ '=' ∧ c ≠ '#' ∧ c ≠ '"' ∧ c ≠ '+' ∧ c ≠ '-' ∧
      ¬ IdentChar c ∧ isDecDigit c = false ∧ ¬ Space c ∧ (c = '/' → ∃ q', q = '/' :: q') := by
  rcases h.head e with rfl | rfl | rfl | hn | ⟨rfl, hq⟩
  · refine ⟨by decide, by decide, by decide, by decide, by decide, by decide, by decide, by decide,
      by decide, by decide, fun h => absurd h (by decide)⟩
  · refine ⟨by decide, by decide, by decide, by decide, by decide, by decide, by decide, by decide,
      by decide, by decide, fun h => absurd h (by decide)⟩
  · refine ⟨by decide, by decide, by decide, by decide, by decide, by decide, by decide, by decide,
      by decide, by decide, fun h => absurd h (by decide)⟩
  · have f := newline_facts hn
    exact ⟨f.2.1, f.2.2.1, f.2.2.2.1, f.2.2.2.2.1, f.2.2.2.2.2.1, f.2.2.2.2.2.2.1, f.2.2.2.2.2.2.2.1,
      f.2.2.2.2.2.2.2.2.2.2.1, f.2.2.2.2.2.2.2.2.2.2.2.1, f.2.2.2.2.2.2.2.2.2.2.2.2, fun h => absurd h f.1⟩
  · refine ⟨by decide, by decide, by decide, by decide, by decide, by decide, by decide, by decide,
      by decide, by decide, fun _ => hq⟩

omit [FloatIO] in
theorem Wall.nodeSpace {x : Str} (h : Wall x) : nodeSpace x = .back := by
  apply nodeSpace_back_of
  · intro c q e
    have := (h.facts e).2.2.2.2.2.2.2.2.2.1
    cases hs : isUnicodeSpace c
    · rfl
    · exact absurd (isUnicodeSpace_iff.mp hs) this
  · intro q e
    obtain ⟨q', hq⟩ := (h.facts e).2.2.2.2.2.2.2.2.2.2 rfl
    exact absurd (List.cons.inj hq).1 (by decide)
  · intro q e
    exact (h.facts e).1 rfl

omit [FloatIO] in
theorem Wall.slashdash {x : Str} (h : Wall x) : slashdash x = .back := by
  apply bind_back
  apply lit_back.mpr
  intro q e
  obtain ⟨q', hq⟩ := (h.facts (c := '/') (q := '-' :: q) e).2.2.2.2.2.2.2.2.2.2 rfl
  exact absurd (List.cons.inj hq).1 (by decide)

omit [FloatIO] in
theorem Wall.ends {x : Str} (h : Wall x) : Ends x := by
  unfold Ends valueTerminator
  rcases h with rfl | ⟨q, rfl⟩ | ⟨q, rfl⟩ | ⟨u, q, h⟩
  · exact ⟨_, _, rfl⟩
  · exact ⟨_, _, rfl⟩
  · exact ⟨_, _, rfl⟩
  · have hw : Wall x := Or.inr (Or.inr (Or.inr ⟨u, q, h⟩))
    cases hx : x with
    | nil => rw [hx] at h; cases h
    | cons c t =>
      rw [← hx]
      have hn := hw.nodeSpace
      rcases hw.head hx with hc | hc | hc | hc | hc
      · subst hc; rw [hx]; exact ⟨_, _, rfl⟩
      · subst hc; rw [hx]; exact ⟨_, _, rfl⟩
      all_goals
        refine ⟨u, q, ?_⟩
        rw [alt_right (eof_back.mpr (by rw [hx]; simp))]
        have ne : ∀ d : Char, d ≠ c → lit [d] x = .back := fun d hd => by rw [hx]; exact lit_cons_ne hd
      · subst hc
        rw [alt_right (ne _ (by decide)), alt_right (ne _ (by decide)), alt_right (ne _ (by decide)),
          alt_right (ne _ (by decide)), alt_right hn]
        exact h
      · have f := newline_facts hc
        have fp : c ≠ ')' := by rintro rfl; revert hc; decide
        rw [alt_right (ne _ (Ne.symm f.2.2.2.1)), alt_right (ne _ (Ne.symm fp)),
          alt_right (ne _ (Ne.symm f.2.2.2.2.2.2.2.2.1)),
          alt_right (ne _ (Ne.symm f.2.2.2.2.2.2.2.2.2.1)), alt_right hn]
        exact h
      · rw [hc.1] at ne
        rw [alt_right (ne _ (by decide)), alt_right (ne _ (by decide)), alt_right (ne _ (by decide)),
          alt_right (ne _ (by decide)), alt_right hn]
        exact h

omit [FloatIO] in
/-- A text starting with a character that starts no string. -/
theorem stringP_back {s : Str} (h1 : ∀ c q, s = c :: q → ¬ IdentChar c) (h2 : ∀ q, s ≠ '#' :: q)
    (h3 : ∀ q, s ≠ '"' :: q) : stringP s = .back := by
  unfold stringP
  rw [alt_right (bind_back (identString_back h1)), alt_right (bind_back (rawString_back h2))]
  exact bind_back (quotedString_back h3)

omit [FloatIO] in
theorem decimal_back {s q : Str} {b : Bool} (h : signum s = .ok b q) (hq : NoDigit q) : decimal s = .back :=
  signedP_back h (mapOpt_back (digitGroup_back hq))

/-- A text that does not continue with a digit after its sign is not a number. -/
theorem number_back {s q : Str} {b : Bool} (h : signum s = .ok b q) (hq : NoDigit q) : number s = .back := by
  have hd := decimal_back h hq
  have pre : ∀ {t : Str} {x y : Char}, t = [x, y] → x = '0' → lit t q = .back := by
    rintro t x y rfl rfl
    apply lit_back.mpr
    rintro r rfl
    exact absurd (hq '0' _ rfl) (by decide)
  unfold number
  have hf : floatValue s = .back := by
    unfold floatValue
    apply bind_back
    apply takeP_back
    rw [alt_right (p := floatExp) (bind_back hd)]
    exact bind_back hd
  rw [alt_right hf]
  unfold integerValue
  apply bind_back
  have hh : hex s = .back := signedP_back h (bind_back (by
    rw [alt_right (pre rfl rfl)]; exact pre rfl rfl))
  have ho : octal s = .back := signedP_back h (bind_back (by
    rw [alt_right (pre rfl rfl)]; exact pre rfl rfl))
  have hbi : binary s = .back := signedP_back h (bind_back (by
    rw [alt_right (pre rfl rfl)]; exact pre rfl rfl))
  rw [alt_right (bind_back hh), alt_right (bind_back ho), alt_right (bind_back hbi)]
  exact bind_back hd

/-- A text starting with a character that starts no value. -/
theorem valueBody_back {s : Str} (h1 : ∀ c q, s = c :: q → ¬ IdentChar c) (h2 : ∀ q, s ≠ '#' :: q)
    (h3 : ∀ q, s ≠ '"' :: q) : valueBody s = .back := by
  have hs := stringP_back h1 h2 h3
  unfold valueBody
  rw [alt_right (keyword_back h2)]
  have hsig : signum s = .ok true s := by
    cases s with
    | nil => rfl
    | cons c q =>
      apply signum_none
      · rintro rfl; exact h1 _ _ rfl (by decide)
      · rintro rfl; exact h1 _ _ rfl (by decide)
  rw [alt_right (number_back hsig ?_)]
  · exact bind_back hs
  · intro c q e
    cases hd : isDecDigit c
    · rfl
    · exact absurd (isDisallowedIdentChar_iff.mp (hex_not_disallowed (hex_of_dec hd))) (h1 c q e)

/-- A text starting with a character that starts no entry. -/
theorem entryBody_back {total : Nat} {s : Str} (h1 : ∀ c q, s = c :: q → ¬ IdentChar c) (h2 : ∀ q, s ≠ '#' :: q)
    (h3 : ∀ q, s ≠ '"' :: q) (h4 : ∀ q, s ≠ '(' :: q) : entryBody total s = .back := by
  rw [entryBody_value (stringP_back h1 h2 h3)]
  exact value_back h4 (valueBody_back h1 h2 h3)

theorem Wall.entryBody {x : Str} (h : Wall x) (total : Nat) : entryBody total x = .back :=
  entryBody_back (fun _ _ e => (h.facts e).2.2.2.2.2.2.2.1) (fun _ e => (h.facts e).2.2.2.1 rfl)
    (fun _ e => (h.facts e).2.2.2.2.1 rfl) (fun _ e => (h.facts e).2.1 rfl)

/-! ### White space -/

omit [FloatIO] in
/-- `w` is read as node space in front of `r`. -/
def Space0 (w r : Str) : Prop := nodeSpace0 (w ++ r) = .ok () r

omit [FloatIO] in
/-- `w` is read as node space, up to whatever is not node space. -/
def WSp (w : Str) : Prop := ∀ r, nodeSpace r = .back → Space0 w r

omit [FloatIO] in
/-- `w` is read as node space, up to whatever is not a space, newline, comment or
line continuation. -/
def Sp (w : Str) : Prop := ∀ r, Solid r → Space0 w r

omit [FloatIO] in
theorem WSp.sp {w : Str} (h : WSp w) : Sp w := fun r hr => h r hr.nodeSpace

omit [FloatIO] in
theorem WSp.nil : WSp [] := fun _ h => void_eq (rep0_nil h)

omit [FloatIO] in
theorem Sp.nil : Sp [] := WSp.nil.sp

omit [FloatIO] in
theorem Space0.take {w r : Str} (h : Space0 w r) : takeP nodeSpace0 (w ++ r) = .ok w r := takeP_eq h

omit [FloatIO] in
theorem Sp.take {w r : Str} (h : Sp w) (hr : Solid r) : takeP nodeSpace0 (w ++ r) = .ok w r := (h r hr).take

omit [FloatIO] in
/-- Non-empty node space. -/
theorem Space0.space1 {w r : Str} (h0 : Space0 w r) (hne : w ≠ []) :
    ∃ q, Kdl.nodeSpace (w ++ r) = .ok () q ∧ nodeSpace0 q = .ok () r ∧ nodeSpace1 (w ++ r) = .ok () r := by
  obtain ⟨l, hl⟩ := void_ok.mp h0
  rw [rep0_unfold] at hl
  cases hs : Kdl.nodeSpace (w ++ r) with
  | ok a q =>
    rw [hs] at hl
    simp only at hl
    split at hl
    · cases hq : rep0 Kdl.nodeSpace q with
      | ok as r' =>
        rw [hq] at hl
        simp only [Res.ok.injEq] at hl
        rw [hl.2] at hq
        exact ⟨q, rfl, void_eq hq, void_eq (rep1_eq hs hq)⟩
      | back => rw [hq] at hl; cases hl
      | cut => rw [hq] at hl; cases hl
      | crash => rw [hq] at hl; cases hl
    · cases hl
  | back =>
    rw [hs] at hl
    simp only [Res.ok.injEq] at hl
    have := congrArg List.length hl.2
    simp only [List.length_append] at this
    exact absurd (List.eq_nil_of_length_eq_zero (by omega)) hne
  | cut => rw [hs] at hl; cases hl
  | crash => rw [hs] at hl; cases hl

omit [FloatIO] in
theorem ends_of_space {s q : Str} {u : Unit} (h : nodeSpace s = .ok u q) : Ends s := by
  unfold Ends valueTerminator
  obtain ⟨c, t, hs, hc⟩ := nodeSpace_head h
  refine ⟨u, q, ?_⟩
  have hcc : c ≠ '=' ∧ c ≠ ')' ∧ c ≠ '{' ∧ c ≠ '}' := by
    rcases hc with hc | rfl | rfl
    · refine ⟨?_, ?_, ?_, ?_⟩ <;> rintro rfl <;> revert hc <;> decide
    · decide
    · decide
  have ne : ∀ d : Char, c ≠ d → lit [d] s = .back := fun d hd => by rw [hs]; exact lit_cons_ne (Ne.symm hd)
  rw [alt_right (eof_back.mpr (by rw [hs]; simp)), alt_right (ne _ hcc.1), alt_right (ne _ hcc.2.1),
    alt_right (ne _ hcc.2.2.1), alt_right (ne _ hcc.2.2.2)]
  exact alt_left h

omit [FloatIO] in
theorem Space0.ends {w r : Str} (h : Space0 w r) (he : w = [] → Ends r) : Ends (w ++ r) := by
  by_cases hw : w = []
  · subst hw; exact he rfl
  · obtain ⟨q, hq, _⟩ := h.space1 hw
    exact ends_of_space hq

omit [FloatIO] in
theorem nodeSpace_spaces {w r : Str} (h : ∀ c ∈ w, Space c) (hw : w ≠ []) (hr : Kdl.nodeSpace r = .back) :
    Kdl.nodeSpace (w ++ r) = .ok () r := by
  have hws : Kdl.ws r = .back := by
    unfold Kdl.nodeSpace at hr
    cases hw' : Kdl.ws r with
    | back => rfl
    | ok a q =>
      exfalso
      have hl := Strict.ws.lt hw'
      have h1 : wsp r ≠ .back := by
        intro e
        unfold wsp Kdl.void at e
        have : rep1 Kdl.ws r ≠ .back := by
          intro e
          unfold rep1 at e
          rw [bind_eq hw'] at e
          cases hq : rep0 Kdl.ws q with
          | ok l q' => rw [bind_eq hq] at e; cases e
          | back =>
            exact absurd hq (by
              intro e'
              exact absurd e' (NoBack.rep0 _ _))
          | cut => rw [bind_cut hq] at e; cases e
          | crash => rw [bind_crash hq] at e; cases e
        cases h' : rep1 Kdl.ws r with
        | ok a q => rw [bind_eq h'] at e; cases e
        | back => exact this h'
        | cut => rw [bind_cut h'] at e; cases e
        | crash => rw [bind_crash h'] at e; cases e
      cases ha : (do wss; escline; wss : P Unit) r with
      | ok a q => rw [alt_left ha] at hr; cases hr
      | back => rw [alt_right ha] at hr; exact h1 hr
      | cut => rw [alt_cut ha] at hr; cases hr
      | crash => unfold P.alt at hr; rw [ha] at hr; cases hr
    | cut =>
      exfalso
      have : (do wss; escline; wss : P Unit) r = .cut := by
        apply bind_cut
        unfold wss Kdl.void
        apply bind_cut
        rw [rep0_unfold, hw']
      rw [alt_cut this] at hr; cases hr
    | crash =>
      exfalso
      have : (do wss; escline; wss : P Unit) r = .crash := by
        apply bind_crash
        unfold wss Kdl.void
        apply bind_crash
        rw [rep0_unfold, hw']
      unfold P.alt at hr; rw [this] at hr; cases hr
  have hesc : escline r = .back := by
    cases he : escline r with
    | back => rfl
    | ok a q =>
      exfalso
      obtain ⟨q', rfl⟩ := escline_head he
      have h0 : wss ('\\' :: q') = .ok () ('\\' :: q') := void_eq (rep0_nil hws)
      unfold Kdl.nodeSpace at hr
      have h1 : (do wss; escline; wss : P Unit) ('\\' :: q') = wss q := by
        rw [bind_eq h0, bind_eq he]
      cases hq : wss q with
      | ok a q => rw [alt_left (h1.trans hq)] at hr; cases hr
      | back => exact absurd hq (by unfold wss Kdl.void; intro e; cases hh : rep0 Kdl.ws q with
          | ok l q' => rw [bind_eq hh] at e; cases e
          | back => exact NoBack.rep0 _ _ hh
          | cut => rw [bind_cut hh] at e; cases e
          | crash => rw [bind_crash hh] at e; cases e)
      | cut => rw [alt_cut (h1.trans hq)] at hr; cases hr
      | crash => unfold P.alt at hr; rw [h1.trans hq] at hr; cases hr
    | cut =>
      exfalso
      have h0 : wss r = .ok () r := void_eq (rep0_nil hws)
      unfold Kdl.nodeSpace at hr
      rw [alt_cut (by rw [bind_eq h0]; exact bind_cut he)] at hr
      cases hr
    | crash =>
      exfalso
      have h0 : wss r = .ok () r := void_eq (rep0_nil hws)
      unfold Kdl.nodeSpace at hr
      have : (do wss; escline; wss : P Unit) r = .crash := by rw [bind_eq h0]; exact bind_crash he
      unfold P.alt at hr; rw [this] at hr; cases hr
  have hrep : ∀ w : Str, (∀ c ∈ w, Space c) → ∃ l, rep0 Kdl.ws (w ++ r) = .ok l r := by
    intro w
    induction w with
    | nil => intro _; exact ⟨[], rep0_nil hws⟩
    | cons c w ih =>
      intro hw
      obtain ⟨l, hl⟩ := ih fun x hx => hw x (by simp [hx])
      exact ⟨() :: l, rep0_cons (alt_left (unicodeSpace_eq (hw c (by simp)))) (by simp) hl⟩
  obtain ⟨c, w', rfl⟩ := List.exists_cons_of_ne_nil hw
  obtain ⟨l, hl⟩ := hrep w' fun x hx => h x (by simp [hx])
  obtain ⟨l', hl'⟩ := hrep (c :: w') h
  unfold Kdl.nodeSpace
  rw [alt_right]
  · exact void_eq (rep1_eq (alt_left (unicodeSpace_eq (h c (by simp)))) hl)
  · have h0 : wss (c :: w' ++ r) = .ok () r := void_eq hl'
    rw [bind_eq h0]
    exact bind_back hesc

omit [FloatIO] in
/-- Spaces and tabs are node space. -/
theorem WSp.spaces {w : Str} (h : ∀ c ∈ w, Space c) : WSp w := by
  intro r hr
  by_cases hw : w = []
  · subst hw; exact WSp.nil r hr
  · refine void_eq (rep0_cons (nodeSpace_spaces h hw hr) ?_ (rep0_nil hr))
    have := List.length_pos_iff.mpr hw
    rw [List.length_append]; omega

omit [FloatIO] in
theorem Sp.spaces {w : Str} (h : ∀ c ∈ w, Space c) : Sp w := (WSp.spaces h).sp

/-! ### Strings as values -/

omit [FloatIO] in
theorem stringP_head {s v r : Str} (h : stringP s = .ok v r) :
    ∃ c q, s = c :: q ∧ (IdentChar c ∨ c = '#' ∨ c = '"') := by
  by_cases hh : (∀ c q, s = c :: q → ¬ IdentChar c) ∧ (∀ q, s ≠ '#' :: q) ∧ (∀ q, s ≠ '"' :: q)
  · rw [stringP_back hh.1 hh.2.1 hh.2.2] at h; cases h
  · cases s with
    | nil => exact absurd ⟨(by rintro _ _ ⟨⟩), (by rintro _ ⟨⟩), (by rintro _ ⟨⟩)⟩ hh
    | cons c q =>
      refine ⟨c, q, rfl, Classical.byContradiction fun hc => hh ⟨?_, ?_, ?_⟩⟩
      · intro c' q' e hi
        cases e
        exact hc (Or.inl hi)
      · intro q' e
        cases e
        exact hc (Or.inr (Or.inl rfl))
      · intro q' e
        cases e
        exact hc (Or.inr (Or.inr rfl))

omit [FloatIO] in
theorem signum_noDigit (s : Str) : ∃ b q, signum s = .ok b q ∧ (NoDigit q ∨ NumberLike s) := by
  have key : ∀ (sg q : Str) (k : Int), Sign sg k → NoDigit q ∨ NumberLike (sg ++ q) := by
    intro sg q k hs
    cases q with
    | nil => left; rintro _ _ ⟨⟩
    | cons c t =>
      cases hd : isDecDigit c with
      | true => exact Or.inr ⟨sg, k, [], c, t, hs, Or.inl rfl, isDigit_iff.1.mpr hd, by simp⟩
      | false => left; rintro _ _ ⟨⟩; exact hd
  cases s with
  | nil => exact ⟨true, [], rfl, key [] [] 1 .none⟩
  | cons c q =>
    by_cases h1 : c = '+'
    · subst h1; exact ⟨true, q, rfl, key ['+'] q 1 .plus⟩
    by_cases h2 : c = '-'
    · subst h2; exact ⟨false, q, rfl, key ['-'] q (-1) .minus⟩
    exact ⟨true, c :: q, signum_none h1 h2, key [] (c :: q) 1 .none⟩

omit [FloatIO] in
theorem identString_signum {s v r : Str} (h : identifierString s = .ok v r) :
    ∃ b q, signum s = .ok b q ∧ NoDigit q := by
  obtain ⟨b, q, h1, h2⟩ := signum_noDigit s
  refine ⟨b, q, h1, ?_⟩
  rcases h2 with h2 | h2
  · exact h2
  · rw [identString_num h2] at h; cases h

omit [FloatIO] in
theorem rawString_second {q v r : Str} (h : rawString ('#' :: q) = .ok v r) :
    ∃ c x, q = c :: x ∧ (c = '"' ∨ c = '#') := by
  unfold rawString at h
  rw [bind_ok] at h
  obtain ⟨hs, q1, h1, h⟩ := h
  rw [bind_ok] at h
  obtain ⟨ml, q2, h2, _⟩ := h
  obtain ⟨_, l, h1⟩ := takeP_ok.mp h1
  obtain ⟨_, q3, _, h3, h4, _⟩ := rep1_ok.mp h1
  rw [lit_ok] at h3
  have : q = q3 := (List.cons.inj h3).2
  subst this
  have hR := rep_of_rep0 h4
  have hx : (∃ x, q = '#' :: x) ∨ q = q1 := by
    cases hR with
    | nil _ => exact Or.inr rfl
    | cons h _ _ => exact Or.inl ⟨_, lit_ok.mp h⟩
  rcases hx with ⟨x, rfl⟩ | rfl
  · exact ⟨_, _, rfl, Or.inr rfl⟩
  · rcases alt_ok.mp h2 with h2 | ⟨_, h2⟩
    · rw [bind_ok] at h2
      obtain ⟨_, _, h2, _⟩ := h2
      exact ⟨_, _, lit_ok.mp h2, Or.inl rfl⟩
    · rw [bind_ok] at h2
      obtain ⟨_, _, h2, _⟩ := h2
      exact ⟨_, _, lit_ok.mp h2, Or.inl rfl⟩

/-- What is read as a string is read as a string value. -/
theorem valueBody_string {s v r : Str} (h : stringP s = .ok v r) : valueBody s = .ok (.string v) r := by
  have key : keyword s = .back ∧ number s = .back := by
    unfold stringP at h
    have quote : ∀ {c : Char} {q : Str}, s = c :: q → (c = '"' ∨ c = '#') → number s = .back := by
      rintro c q rfl hc
      refine number_back (signum_none ?_ ?_) ?_
      · rcases hc with rfl | rfl <;> decide
      · rcases hc with rfl | rfl <;> decide
      · intro c' q' e
        cases e
        rcases hc with rfl | rfl <;> rfl
    rcases alt_ok.mp h with h | ⟨_, h⟩
    · rw [bind_ok] at h
      obtain ⟨t, q, h, _⟩ := h
      obtain ⟨b, q', h1, h2⟩ := identString_signum h
      refine ⟨keyword_back ?_, number_back h1 h2⟩
      rintro q rfl
      rw [identString_back (by rintro c q e; cases e; decide)] at h
      cases h
    rcases alt_ok.mp h with h | ⟨_, h⟩
    · rw [bind_ok] at h
      obtain ⟨t, q, h, _⟩ := h
      have hs : ∃ q', s = '#' :: q' := Classical.byContradiction fun hn => by
        rw [rawString_back fun q e => hn ⟨q, e⟩] at h; cases h
      obtain ⟨q', rfl⟩ := hs
      refine ⟨?_, quote rfl (Or.inr rfl)⟩
      have := rawString_second h
      obtain ⟨c, x, e, hc⟩ := this
      subst e
      unfold keyword
      rw [bind_eq (lit_one _ _)]
      exact bind_back (notP_back (satisfy_eq (by rcases hc with rfl | rfl <;> rfl)))
    · rw [bind_ok] at h
      obtain ⟨t, q, h, _⟩ := h
      have hs : ∃ q', s = '"' :: q' := Classical.byContradiction fun hn => by
        rw [quotedString_back fun q e => hn ⟨q, e⟩] at h; cases h
      obtain ⟨q', rfl⟩ := hs
      exact ⟨keyword_back (by rintro q e; cases e), quote rfl (Or.inl rfl)⟩
  unfold valueBody
  rw [alt_right key.1, alt_right key.2, bind_eq h]
  rfl

/-! ### Tokens -/

omit [FloatIO] in
/-- The characters an entry or a node starts with. -/
def Start (c : Char) : Prop := IdentChar c ∨ c = '#' ∨ c = '"' ∨ c = '('

omit [FloatIO] in
theorem Start.facts {c : Char} (h : Start c) :
    ¬ Blank c ∧ c ≠ '/' ∧ c ≠ '\\' ∧ c ≠ '{' ∧ c ≠ '}' ∧ c ≠ '=' ∧ c ≠ ';' ∧ c ≠ ')' := by
  rcases h with h | rfl | rfl | rfl
  · refine ⟨fun hb => hb.elim h.1 h.2.1, ?_, ?_, ?_, ?_, ?_, ?_, ?_⟩ <;> rintro rfl <;> revert h <;> decide
  · decide
  · decide
  · decide

omit [FloatIO] in
/-- A text that starts like an entry or a node. -/
def Starts (s : Str) : Prop := ∃ c q, s = c :: q ∧ Start c

omit [FloatIO] in
theorem Starts.solid {s : Str} (h : Starts s) : Solid s := by
  obtain ⟨c, q, rfl, hc⟩ := h
  rintro _ _ ⟨⟩
  exact ⟨hc.facts.1, hc.facts.2.1, hc.facts.2.2.1⟩

omit [FloatIO] in
theorem Starts.append {s : Str} (h : Starts s) (r : Str) : Starts (s ++ r) := by
  obtain ⟨c, q, rfl, hc⟩ := h
  exact ⟨c, q ++ r, rfl, hc⟩

omit [FloatIO] in
/-- `t` is read as the string `v`, whatever follows that may follow a string. -/
def StrTok (v t : Str) : Prop := ∀ r, Ends r → stringP (t ++ r) = .ok v r

omit [FloatIO] in
theorem StrTok.head {v t : Str} (h : StrTok v t) : ∃ c q, t = c :: q ∧ (IdentChar c ∨ c = '#' ∨ c = '"') := by
  have := h [] Ends.nil
  rw [List.append_nil] at this
  exact stringP_head this

omit [FloatIO] in
theorem StrTok.starts {v t : Str} (h : StrTok v t) : Starts t := by
  obtain ⟨c, q, e, hc⟩ := h.head
  exact ⟨c, q, e, by rcases hc with hc | hc | hc <;> simp [Start, hc]⟩

omit [FloatIO] in
theorem StrTok.not_paren {v t : Str} (h : StrTok v t) (r q : Str) : t ++ r ≠ '(' :: q := by
  obtain ⟨c, x, rfl, hc⟩ := h.head
  intro e
  have := (List.cons.inj e).1
  subst this
  rcases hc with hc | hc | hc <;> revert hc <;> decide

omit [FloatIO] in
theorem StrTok.write {v : Str} (h : Writable v) : StrTok v (writeString v) := fun _ hr => stringP_write h hr

/-- `t` is read as the value `v`. -/
def ValTok (v : Value) (t : Str) : Prop :=
  Starts t ∧ ∀ r, Ends r → (∀ q, t ++ r ≠ '(' :: q) ∧ valueBody (t ++ r) = .ok v r ∧
    (stringP (t ++ r) = .back ∨ ∃ s, v = .string s ∧ stringP (t ++ r) = .ok s r)

theorem StrTok.val {v t : Str} (h : StrTok v t) : ValTok (.string v) t :=
  ⟨h.starts, fun r hr => ⟨h.not_paren r, valueBody_string (h r hr), Or.inr ⟨v, rfl, h r hr⟩⟩⟩

theorem valueBody_head {s r : Str} {v : Value} (h : valueBody s = .ok v r) :
    ∃ c q, s = c :: q ∧ (IdentChar c ∨ c = '#' ∨ c = '"') := by
  by_cases hh : (∀ c q, s = c :: q → ¬ IdentChar c) ∧ (∀ q, s ≠ '#' :: q) ∧ (∀ q, s ≠ '"' :: q)
  · rw [valueBody_back hh.1 hh.2.1 hh.2.2] at h; cases h
  · cases s with
    | nil => exact absurd ⟨(by rintro _ _ ⟨⟩), (by rintro _ ⟨⟩), (by rintro _ ⟨⟩)⟩ hh
    | cons c q =>
      refine ⟨c, q, rfl, Classical.byContradiction fun hc => hh ⟨?_, ?_, ?_⟩⟩
      · intro c' q' e hi
        cases e
        exact hc (Or.inl hi)
      · intro q' e
        cases e
        exact hc (Or.inr (Or.inl rfl))
      · intro q' e
        cases e
        exact hc (Or.inr (Or.inr rfl))

/-- A printed value. -/
theorem ValTok.write [LawfulFloatIO] {v : Value} (h : WritableValue v) : ValTok (canonValue v) v.display := by
  by_cases hs : ∃ s, v = .string s
  · obtain ⟨s, rfl⟩ := hs
    exact StrTok.val (StrTok.write h)
  · have hs' : ∀ s, v ≠ .string s := fun s e => hs ⟨s, e⟩
    refine ⟨?_, fun r hr => ?_⟩
    · obtain ⟨h1, _⟩ := valueBody_write h Ends.nil hs'
      rw [List.append_nil] at h1
      obtain ⟨c, q, e, hc⟩ := valueBody_head h1
      exact ⟨c, q, e, by rcases hc with hc | hc | hc <;> simp [Start, hc]⟩
    · obtain ⟨h1, h2, h3, _⟩ := valueBody_write h hr hs'
      exact ⟨h3, h1, Or.inl h2⟩

variable {α : Type} (g : Value → α)

/-- `t` is read as a value with the given data (annotation and value). -/
def ValueTok (d : SEntry α) (t : Str) : Prop :=
  Starts t ∧ ∀ total r, Ends r → ∃ e, value total (t ++ r) = .ok e r ∧ semEntry g e = d

omit [FloatIO] in
/-- What may follow an entry. -/
def AfterEntry (s : Str) : Prop := Ends s ∧ ∃ x, nodeSpace0 s = .ok () x ∧ ∀ q, x ≠ '=' :: q

/-- `t` is read as an entry with the given data. -/
def EntTok (d : SEntry α) (t : Str) : Prop :=
  Starts t ∧ ∀ total r, AfterEntry r → ∃ e, entryBody total (t ++ r) = .ok e r ∧ semEntry g e = d

variable {g}

theorem ValTok.value {v : Value} {t : Str} (h : ValTok v t) : ValueTok g ⟨none, none, g v⟩ t :=
  ⟨h.1, fun _ r hr => ⟨_, value_eq (h.2 r hr).1 (h.2 r hr).2.1, rfl⟩⟩

omit [FloatIO] in
theorem ends_lit {c : Char} (h : c = '=' ∨ c = ')' ∨ c = '{' ∨ c = '}') (q : Str) : Ends (c :: q) := by
  rcases h with rfl | rfl | rfl | rfl <;> exact ⟨_, _, rfl⟩

omit [FloatIO] in
theorem solid_lit {c : Char} (h : c = '=' ∨ c = ')' ∨ c = '{' ∨ c = '}') (q : Str) : Solid (c :: q) := by
  rintro _ _ ⟨⟩
  rcases h with rfl | rfl | rfl | rfl <;> decide

theorem tyP_tok {i it b a : Str} (hi : StrTok i it) (hb : Sp b) (ha : Sp a) (total : Nat) (r : Str) :
    ∃ id, tyP total ('(' :: (b ++ (it ++ (a ++ ')' :: r)))) = .ok (b, id, a) r ∧ id.value = i := by
  have h1 := solid_lit (c := ')') (by simp) r
  have h2 := ends_lit (c := ')') (by simp) r
  have he : Ends (a ++ ')' :: r) := (ha _ h1).ends fun _ => h2
  unfold tyP
  rw [bind_eq (lit_one _ _), bind_eq (hb.take (hi.starts.append _).solid)]
  have hp : ∃ q, (nodeSpace <+> lit [')']) (a ++ ')' :: r) = .ok () q := by
    by_cases hn : a = []
    · subst hn
      rw [List.nil_append, alt_right h1.nodeSpace]
      exact ⟨_, lit_one _ _⟩
    · obtain ⟨q, hq, _⟩ := (ha _ h1).space1 hn
      exact ⟨q, alt_left hq⟩
  obtain ⟨q, hq⟩ := hp
  rw [bind_eq (cutErr_eq (by rw [bind_eq (identifier_eq (hi _ he)), bind_eq (peek_eq hq)]; rfl)),
    bind_eq (ha.take h1), bind_eq (lit_one _ _)]
  exact ⟨_, rfl, rfl⟩

theorem ValTok.typed {v : Value} {i it b a f t : Str} (h : ValTok v t) (hi : StrTok i it) (hb : Sp b)
    (ha : Sp a) (hf : Sp f) :
    ValueTok g ⟨some i, none, g v⟩ ('(' :: (b ++ (it ++ (a ++ ')' :: (f ++ t))))) := by
  refine ⟨⟨_, _, rfl, by simp [Start]⟩, fun total r hr => ?_⟩
  obtain ⟨id, h1, h2⟩ := tyP_tok hi hb ha total (f ++ (t ++ r))
  have ht := (h.2 r hr).2.1
  unfold Kdl.value
  simp only [List.cons_append, List.append_assoc] at h1 ⊢
  rw [bind_here, bind_eq (opt_some (by rw [bind_eq h1, bind_eq (hf.take (h.1.append r).solid)]; rfl)),
    bind_here, bind_eq ht, bind_here]
  exact ⟨_, rfl, by simp [semEntry, h2]⟩

theorem EntTok.val {v : Value} {t : Str} (h : ValTok v t) : EntTok g ⟨none, none, g v⟩ t := by
  refine ⟨h.1, fun total r hr => ?_⟩
  obtain ⟨h1, h2, h3⟩ := h.2 r hr.1
  rcases h3 with h3 | ⟨s, rfl, h3⟩
  · rw [entryBody_value h3]
    exact h.value.2 total r hr.1
  · unfold entryBody
    obtain ⟨x, hx, hne⟩ := hr.2
    have hno : opt (do let k ← takeP nodeSpace0; equalsSign; return k) r = .ok none r := by
      apply opt_none
      have : ∃ w, takeP nodeSpace0 r = .ok w x := ⟨_, takeP_ok.mpr ⟨rfl, _, hx⟩⟩
      obtain ⟨w, hw⟩ := this
      rw [bind_eq hw]
      exact bind_back (lit_back.mpr hne)
    rw [bind_eq (opt_some (identifier_eq h3))]
    simp only
    rw [bind_eq hno]
    exact ⟨_, rfl, rfl⟩

theorem ValueTok.typedEntry {i : Str} {v : α} {t : Str} (h : ValueTok g ⟨some i, none, v⟩ ('(' :: t)) :
    EntTok g ⟨some i, none, v⟩ ('(' :: t) := by
  refine ⟨h.1, fun total r hr => ?_⟩
  rw [entryBody_value]
  · exact h.2 total r hr.1
  · apply stringP_back
    · rintro c q e
      rw [← (List.cons.inj e).1]
      decide
    · rintro q e
      exact absurd (List.cons.inj e).1 (by decide)
    · rintro q e
      exact absurd (List.cons.inj e).1 (by decide)

theorem ValueTok.prop {k kt ak ae t : Str} {ty : Option Str} {v : α} (h : ValueTok g ⟨ty, none, v⟩ t)
    (hk : StrTok k kt) (h1 : Sp ak) (h2 : Sp ae) :
    EntTok g ⟨ty, some k, v⟩ (kt ++ (ak ++ '=' :: (ae ++ t))) := by
  refine ⟨hk.starts.append _, fun total r hr => ?_⟩
  have e1 := solid_lit (c := '=') (by simp) (ae ++ (t ++ r))
  have e2 := ends_lit (c := '=') (by simp) (ae ++ (t ++ r))
  have he : Ends (ak ++ '=' :: (ae ++ (t ++ r))) := (h1 _ e1).ends fun _ => e2
  have e3 : equalsSign ('=' :: (ae ++ (t ++ r))) = .ok () (ae ++ (t ++ r)) := lit_one _ _
  obtain ⟨e, hv, hd⟩ := h.2 total r hr.1
  unfold entryBody
  simp only [List.append_assoc, List.cons_append]
  rw [bind_eq (opt_some (identifier_eq (hk _ he)))]
  simp only
  rw [bind_eq (opt_some (by rw [bind_eq (h1.take e1), bind_eq e3]; rfl))]
  simp only
  rw [bind_eq (h2.take (h.1.append r).solid), bind_eq (cutErr_eq hv)]
  refine ⟨_, rfl, ?_⟩
  simp only [semEntry, SEntry.mk.injEq] at hd ⊢
  exact ⟨hd.1, rfl, hd.2.2⟩

/-! ### Lists of entries -/

/-- `w` separates an entry from what precedes it. -/
def ELead (w : Str) : Prop := ∀ total r, Starts r →
  (∃ q, nodeSpace1 (w ++ r) = .ok () q) ∧ entryLeadingF (nodeEntry total) (w ++ r) = .ok w r ∧ AfterEntry (w ++ r)

theorem ELead.space {w : Str} (h : Sp w) (hne : w ≠ []) : ELead w := by
  intro total r hr
  have hs := hr.solid
  obtain ⟨q, h1, h2, h3⟩ := (h r hs).space1 hne
  refine ⟨⟨_, h3⟩, ?_, ends_of_space h1, r, h r hs, ?_⟩
  · unfold entryLeadingF
    apply takeP_eq (a := none)
    rw [bind_eq (h r hs)]
    exact opt_none (bind_back (void_back (sep1_back (bind_back hs.slashdash))))
  · rintro q rfl
    obtain ⟨c, q', e, hc⟩ := hr
    cases e
    exact hc.facts.2.2.2.2.2.1 rfl

/-- Entries one after the other. -/
inductive EntsTok (g : Value → α) : List (SEntry α) → Str → Prop
  | nil : EntsTok g [] []
  | cons {w t T : Str} {d : SEntry α} {ds : List (SEntry α)} (hw : ELead w) (ht : EntTok g d t)
      (hT : EntsTok g ds T) : EntsTok g (d :: ds) (w ++ (t ++ T))

/-- What may follow the last entry of a node. -/
def NoEntry (y : Str) : Prop :=
  AfterEntry y ∧ ∀ total, (do peek nodeSpace1; nodeEntry total : P Entry) y = .back

theorem EntsTok.follow {ds : List (SEntry α)} {T y : Str} (h : EntsTok g ds T) (hy : NoEntry y) :
    AfterEntry (T ++ y) := by
  cases h with
  | nil => exact hy.1
  | cons hw ht hT =>
    rw [List.append_assoc, List.append_assoc]
    exact (hw 0 _ (ht.1.append _)).2.2

theorem entryLeading_nodeEntry {total : Nat} {w t r : Str} {e : Entry}
    (h : entryLeadingF (nodeEntry total) (w ++ t) = .ok w t) (he : entryBody total t = .ok e r) :
    ∃ e', nodeEntry total (w ++ t) = .ok e' r ∧ ∀ {α : Type} (g : Value → α), semEntry g e' = semEntry g e := by
  rw [nodeEntry_unfold]
  unfold nodeEntryF
  rw [bind_eq h, bind_here, bind_eq he, bind_here]
  exact ⟨_, rfl, fun _ => rfl⟩

theorem EntsTok.entries {ds : List (SEntry α)} {T : Str} (h : EntsTok g ds T) {y : Str} (hy : NoEntry y) (total : Nat) :
    ∃ es, entriesP total (T ++ y) = .ok es y ∧ es.map (semEntry g) = ds := by
  unfold entriesP
  induction h with
  | nil => exact ⟨[], rep0_nil (hy.2 total), rfl⟩
  | @cons w t T d ds hw ht hT ih =>
    obtain ⟨es, h1, h2⟩ := ih
    obtain ⟨e, h3, h4⟩ := ht.2 total (T ++ y) (hT.follow hy)
    rw [List.append_assoc, List.append_assoc]
    obtain ⟨⟨q, hq⟩, hl, _⟩ := hw total (t ++ (T ++ y)) (ht.1.append _)
    obtain ⟨e', h5, h6⟩ := entryLeading_nodeEntry hl h3
    refine ⟨e' :: es, rep0_cons (a := e') (r := T ++ y) ?_ ?_ h1, ?_⟩
    · rw [bind_eq (peek_eq hq)]; exact h5
    · obtain ⟨c, q, rfl, _⟩ := ht.1
      simp only [List.length_append, List.length_cons]; omega
    · simp only [List.map_cons, h6, h4, h2]

omit [FloatIO] in
theorem peek_back {β : Type} {p : P β} {s : Str} (h : p s = .back) : peek p s = .back := by
  simp [peek, h]

/-! ### What follows the entries -/

/-- `w` stands between the last entry and `r`, the children block or the terminator. -/
def Mid (w r : Str) : Prop :=
  NoEntry (w ++ r) ∧ ∀ total, beforeNodeChildrenF total (baseNode total) (w ++ r) = .ok () r

/-- `w` stands between the last entry and the children block or the terminator. -/
def Before (w : Str) : Prop := ∀ r, Wall r → Mid w r

theorem Wall.slashdashedChildren {x : Str} (h : Wall x) (total : Nat) (base : P Node) :
    slashdashedChildrenF total base x = .back := by
  unfold slashdashedChildrenF
  have h0 : nodeSpace0 x = .ok () x := WSp.nil x h.nodeSpace
  rw [bind_eq h0]
  exact void_back (sep1_back (bind_back h.slashdash))

theorem Mid.space {w r : Str} (h : Space0 w r) (hr : Wall r) : Mid w r := by
  have hn := hr.nodeSpace
  have hsd : ∀ total, slashdashedEntries total r = .back := fun total =>
    void_back (sep1_back (bind_back hr.slashdash))
  refine ⟨⟨⟨h.ends fun _ => hr.ends, r, h, fun q e => (hr.facts e).2.2.1 rfl⟩, fun total => ?_⟩,
    fun total => ?_⟩
  · by_cases hw : w = []
    · subst hw
      exact bind_back (peek_back (void_back (rep1_back hn)))
    · obtain ⟨_, _, _, h3⟩ := h.space1 hw
      rw [bind_eq (peek_eq h3), nodeEntry_unfold]
      unfold nodeEntryF
      have : entryLeadingF (nodeEntry total) (w ++ r) = .ok w r := by
        unfold entryLeadingF
        apply takeP_eq (a := none)
        rw [bind_eq h]
        exact opt_none (bind_back (hsd total))
      rw [bind_eq this, bind_here]
      exact bind_back (hr.entryBody total)
  · unfold beforeNodeChildrenF
    have hlast : nodeSpace0 (w ++ r) = .ok () r := h
    have h1 : ∀ (k : P Unit), k r = .back → (do nodeSpace1; k : P Unit) (w ++ r) = .back := by
      intro k hk
      by_cases hw : w = []
      · subst hw
        exact bind_back (void_back (rep1_back hn))
      · obtain ⟨_, _, _, h3⟩ := h.space1 hw
        rw [bind_eq h3]
        exact hk
    rw [bind_eq (a := ()) (r := r)]
    · exact WSp.nil r hn
    · rw [alt_right (h1 _ (bind_back (hsd total))), alt_right (h1 _ (hsd total)),
        alt_right (h1 _ (hr.slashdashedChildren total _))]
      exact hlast

theorem Before.space {w : Str} (h : WSp w) : Before w := fun r hr => Mid.space (h r hr.nodeSpace) hr

/-! ### Nodes -/

omit [FloatIO] in
/-- What may follow a node and the space after it. -/
def NodeEnd (r : Str) : Prop := r = [] ∨ (∃ q, r = '}' :: q) ∨ ∃ u q, nodeTerminator r = .ok u q

omit [FloatIO] in
/-- What may follow the nodes of a document or of a children block. -/
def DocEnd (r : Str) : Prop := r = [] ∨ ∃ q, r = '}' :: q

omit [FloatIO] in
theorem NodeEnd.wall {r : Str} (h : NodeEnd r) : Wall r := by
  rcases h with h | h | h
  · exact Or.inl h
  · exact Or.inr (Or.inr (Or.inl h))
  · exact Or.inr (Or.inr (Or.inr h))

omit [FloatIO] in
theorem DocEnd.nodeEnd {r : Str} (h : DocEnd r) : NodeEnd r := h.elim Or.inl fun h => Or.inr (Or.inl h)

omit [FloatIO] in
theorem DocEnd.solid {r : Str} (h : DocEnd r) : Solid r := by
  rcases h with rfl | ⟨q, rfl⟩
  · exact Solid.nil
  · exact solid_lit (by simp) q

omit [FloatIO] in
theorem DocEnd.terminator {r : Str} (h : DocEnd r) : nodeTerminator r = .back := by
  rcases h with rfl | ⟨q, rfl⟩ <;> rfl

omit [FloatIO] in
theorem NodeEnd.not_brace {r : Str} (h : NodeEnd r) (q : Str) : r ≠ '{' :: q := by
  rintro rfl
  rcases h with h | ⟨q', h⟩ | ⟨u, q', h⟩
  · cases h
  · cases h
  · cases h

omit [FloatIO] in
theorem NodeEnd.optTerminator {r : Str} (h : NodeEnd r) : ∃ t q, takeP (opt nodeTerminator) r = .ok t q := by
  rcases h with rfl | ⟨q', rfl⟩ | ⟨u, q', h⟩
  · exact ⟨_, _, rfl⟩
  · refine ⟨_, _, takeP_ok.mpr ⟨rfl, none, opt_none ?_⟩⟩
    rfl
  · exact ⟨_, _, takeP_ok.mpr ⟨rfl, some u, opt_some h⟩⟩

/-- A type annotation in front of a node name. -/
inductive TyTok : Option Str → Str → Prop
  | none : TyTok none []
  | some {i it b a f : Str} (hi : StrTok i it) (hb : Sp b) (ha : Sp a) (hf : Sp f) :
      TyTok (some i) ('(' :: (b ++ (it ++ (a ++ ')' :: f))))

variable (g)

/-- `B` is read as a node with the given data. -/
def BodyTok (d : SNode α) (B : Str) : Prop :=
  Starts B ∧ ∀ total r, NodeEnd r → ∃ n, baseNode total (B ++ r) = .ok n r ∧ semNode g n = d

/-- `D` is read as nodes with the given data. -/
def DocTok (ds : List (SNode α)) (D : Str) : Prop :=
  ∀ total r, DocEnd r → ∃ d, nodesF total (baseNode total) (D ++ r) = .ok d r ∧ semDoc g d = ds

variable {g}

/-- `w` stands between a closing brace and `r`, the terminator. -/
def TailAt (w r : Str) : Prop := ∀ total, ∃ bt q t q', tailText total (baseNode total) true (w ++ r) = .ok bt q ∧
  takeP (opt nodeTerminator) q = .ok t q' ∧ nodeSpace0 q = .ok () r

/-- `w` stands between a closing brace and the terminator. -/
def Tail (w : Str) : Prop := ∀ r, NodeEnd r → TailAt w r

omit [FloatIO] in
theorem nodeTerminator_space {s q : Str} {u : Unit} (h : nodeSpace s = .ok u q) : nodeTerminator s = .back := by
  have hn : ∀ u q, nodeTerminator s ≠ .ok u q := fun u q h' => by
    have := nodeSpace_back_of_terminator h'
    rw [h] at this
    cases this
  obtain ⟨c, t, hs, hc⟩ := nodeSpace_head h
  unfold nodeTerminator at hn ⊢
  have ht := hn
  rcases hc with hc | rfl | rfl
  · have hb : Blank c := Or.inl (isUnicodeSpace_iff.mp hc)
    have hc1 : ¬ Newline c := space_not_newline (isUnicodeSpace_iff.mp hc)
    rw [alt_right (lit_back.mpr fun r e => ?_), alt_right (newline_back fun c' q' e hn => ?_)]
    · exact bind_back (lit_back.mpr fun r e => by
        rw [hs] at e
        have := (List.cons.inj e).1
        subst this
        revert hc; decide)
    · rw [hs] at e; cases e; exact hc1 hn
    · rw [hs] at e
      have := (List.cons.inj e).1
      subst this
      revert hc; decide
  · rw [alt_right (lit_back.mpr fun r e => by rw [hs] at e; exact absurd (List.cons.inj e).1 (by decide)),
      alt_right (newline_back fun c' q' e hn => by rw [hs] at e; cases e; revert hn; decide)] at ht ⊢
    apply bind_back
    apply lit_back.mpr
    rintro r rfl
    rw [nodeSpace_back_of (by rintro c q e; cases e; rfl) (by rintro q e; cases e) (by rintro q e; cases e)] at h
    cases h
  · rw [hs]; rfl

theorem TailAt.space {w r : Str} (h : Space0 w r) (hr : NodeEnd r) : TailAt w r := by
  intro total
  have hn := hr.wall.nodeSpace
  have h1 : tailText total (baseNode total) true (w ++ r) = .ok [] (w ++ r) := by
    unfold tailText
    rw [if_pos rfl]
    apply takeP_nil (a := none)
    apply opt_none
    unfold slashdashedChildrenF
    rw [bind_eq h]
    exact void_back (sep1_back (bind_back hr.wall.slashdash))
  by_cases hw : w = []
  · subst hw
    obtain ⟨t, q', ht⟩ := hr.optTerminator
    exact ⟨_, _, _, _, h1, ht, h⟩
  · obtain ⟨q, h2, _⟩ := h.space1 hw
    exact ⟨_, _, _, _, h1, takeP_nil (opt_none (nodeTerminator_space h2)), h⟩

theorem Tail.space {w : Str} (h : WSp w) : Tail w := fun r hr => TailAt.space (h r hr.wall.nodeSpace) hr

theorem TyTok.parse {ty : Option Str} {t : Str} (h : TyTok ty t) {r : Str} (hr : Starts r)
    (hp : ∀ q, r ≠ '(' :: q) (total : Nat) :
    ∃ o q af, opt (tyP total) (t ++ r) = .ok o q ∧ takeP nodeSpace0 q = .ok af r ∧
      o.map (fun x => x.2.1.value) = ty := by
  cases h with
  | none => exact ⟨Option.none, r, [], opt_none (tyP_back hp), takeP_nil hr.solid.nodeSpace0, rfl⟩
  | @some i it b a f hi hb ha hf =>
    obtain ⟨id, h1, h2⟩ := tyP_tok hi hb ha total (f ++ r)
    refine ⟨Option.some (b, id, a), f ++ r, f, opt_some ?_, hf.take hr.solid, by simp [h2]⟩
    simp only [List.cons_append, List.append_assoc] at h1 ⊢
    exact h1

theorem TyTok.starts {ty : Option Str} {t r : Str} (h : TyTok ty t) (hr : Starts r) : Starts (t ++ r) := by
  cases h with
  | none => exact hr
  | some => exact ⟨_, _, rfl, by simp [Start]⟩

theorem Starts.notEnd {s : Str} (h : Starts s) :
    notP (lit ['}'] <+> eof) s = .ok () s ∧ cutErr (notP (lit ['{'])) s = .ok () s := by
  obtain ⟨c, q, rfl, hc⟩ := h
  have f := hc.facts
  refine ⟨notP_eq ?_, cutErr_eq (notP_eq (lit_cons_ne (Ne.symm f.2.2.2.1)))⟩
  rw [alt_right (lit_cons_ne (Ne.symm f.2.2.2.2.1))]
  exact eof_back.mpr (by simp)

/-- The parts of a node: what is common to nodes with and without children. -/
theorem baseNode_core {ty : Option Str} {tt nm nt Y y z : Str} {ds : List (SEntry α)} {ch : Option (Str × Document)}
    {cd : Option (List (SNode α))} {es : List Entry} {total : Nat}
    (h1 : TyTok ty tt) (h2 : StrTok nm nt) (hY : Ends Y) (e6 : entriesP total Y = .ok es y) (e7 : es.map (semEntry g) = ds)
    (h4 : childrenP total (baseNode total) y = .ok ch z)
    (h5 : semOptDoc g (ch.map Prod.snd) = cd) {bt q t q' r : Str}
    (h6 : tailText total (baseNode total) ch.isSome z = .ok bt q)
    (h7 : takeP (opt nodeTerminator) q = .ok t q') (h8 : nodeSpace0 q = .ok () r) :
    ∃ n, baseNode total (tt ++ (nt ++ Y)) = .ok n r ∧ semNode g n = .mk ty nm ds cd := by
  have hs := h1.starts (h2.starts.append Y)
  obtain ⟨e1, e2⟩ := hs.notEnd
  obtain ⟨o, q1, af, e3, e4, e5⟩ := h1.parse (h2.starts.append Y) (h2.not_paren _) total
  have e8 := identifier_eq (total := total) (h2 _ hY)
  have hne : nt ≠ [] := by
    obtain ⟨c, q, rfl, _⟩ := h2.head
    simp
  rw [baseNode_unfold]
  unfold baseNodeF
  rw [bind_eq e1, bind_here, bind_eq e2, bind_eq e3, bind_eq e4, bind_eq (cutErr_eq e8)]
  simp only [Option.some.injEq, hne, if_false]
  rw [bind_eq e6, bind_eq h4]
  unfold tailP
  rw [bind_eq (by rw [bind_eq h6, bind_eq (peek_eq h7)]; rfl), bind_eq h8, bind_here]
  cases o with
  | none =>
    cases ch with
    | none => exact ⟨_, rfl, by simp_all [semNode]⟩
    | some c => exact ⟨_, rfl, by simp_all [semNode]⟩
  | some o =>
    cases ch with
    | none => exact ⟨_, rfl, by simp_all [semNode]⟩
    | some c => exact ⟨_, rfl, by simp_all [semNode]⟩

/-- The parts of a node, with entries as tokens. -/
theorem baseNode_parts {ty : Option Str} {tt nm nt T y z : Str} {ds : List (SEntry α)} {ch : Option (Str × Document)}
    {cd : Option (List (SNode α))}
    (h1 : TyTok ty tt) (h2 : StrTok nm nt) (h3 : EntsTok g ds T) (hy : NoEntry y) (total : Nat)
    (h4 : childrenP total (baseNode total) y = .ok ch z)
    (h5 : semOptDoc g (ch.map Prod.snd) = cd) {bt q t q' r : Str}
    (h6 : tailText total (baseNode total) ch.isSome z = .ok bt q)
    (h7 : takeP (opt nodeTerminator) q = .ok t q') (h8 : nodeSpace0 q = .ok () r) :
    ∃ n, baseNode total (tt ++ (nt ++ (T ++ y))) = .ok n r ∧ semNode g n = .mk ty nm ds cd := by
  obtain ⟨es, e6, e7⟩ := h3.entries hy total
  exact baseNode_core h1 h2 (h3.follow hy).1 e6 e7 h4 h5 h6 h7 h8

/-- A node without children, in front of `r`. -/
theorem baseNode_leaf {ty : Option Str} {tt nm nt T w r : Str} {ds : List (SEntry α)}
    (h1 : TyTok ty tt) (h2 : StrTok nm nt) (h3 : EntsTok g ds T) (h4 : Mid w r) (hr : NodeEnd r) (total : Nat) :
    ∃ n, baseNode total ((tt ++ (nt ++ (T ++ w))) ++ r) = .ok n r ∧ semNode g n = .mk ty nm ds none := by
  simp only [List.append_assoc]
  obtain ⟨h5, h6⟩ := h4
  obtain ⟨t, q', ht⟩ := hr.optTerminator
  refine baseNode_parts h1 h2 h3 h5 total (ch := none) (z := w ++ r) ?_ rfl (bt := w) (q := r) ?_ ht ?_
  · apply opt_none
    rw [bind_eq (takeP_eq (h6 total))]
    exact bind_back (bind_back (lit_back.mpr hr.not_brace))
  · exact takeP_eq (h6 total)
  · exact WSp.nil r hr.wall.nodeSpace

/-- A node with children, in front of `r`. -/
theorem baseNode_block {ty : Option Str} {tt nm nt T w D v r : Str} {ds : List (SEntry α)} {cs : List (SNode α)}
    (h1 : TyTok ty tt) (h2 : StrTok nm nt) (h3 : EntsTok g ds T) (h4 : ∀ x, Mid w ('{' :: x)) (total : Nat)
    (h5 : ∀ x, ∃ d, nodesF total (baseNode total) (D ++ '}' :: x) = .ok d ('}' :: x) ∧ semDoc g d = cs) (h6 : TailAt v r) :
    ∃ n, baseNode total ((tt ++ (nt ++ (T ++ (w ++ '{' :: (D ++ '}' :: v))))) ++ r) = .ok n r ∧
      semNode g n = .mk ty nm ds (some cs) := by
  simp only [List.append_assoc, List.cons_append]
  obtain ⟨h7, h8⟩ := h4 (D ++ '}' :: (v ++ r))
  obtain ⟨d, h9, h10⟩ := h5 (v ++ r)
  obtain ⟨bt, q, t, q', h11, h12, h13⟩ := h6 total
  refine baseNode_parts h1 h2 h3 h7 total (ch := some (w, d)) (z := v ++ r) ?_ (by simp [semOptDoc, h10]) h11 h12 h13
  apply opt_some
  rw [bind_eq (takeP_eq (h8 total))]
  unfold nodeChildrenF
  rw [bind_eq (by rw [bind_eq (lit_one _ _), bind_eq h9, bind_eq (cutErr_eq (lit_one _ _))]; rfl)]
  rfl

/-- A node without children. -/
theorem BodyTok.leaf {ty : Option Str} {tt nm nt T w : Str} {ds : List (SEntry α)}
    (h1 : TyTok ty tt) (h2 : StrTok nm nt) (h3 : EntsTok g ds T) (h4 : Before w) :
    BodyTok g (.mk ty nm ds none) (tt ++ (nt ++ (T ++ w))) :=
  ⟨h1.starts (h2.starts.append _), fun total r hr => baseNode_leaf h1 h2 h3 (h4 r hr.wall) hr total⟩

/-- A node with children. -/
theorem BodyTok.block {ty : Option Str} {tt nm nt T w D v : Str} {ds : List (SEntry α)} {cs : List (SNode α)}
    (h1 : TyTok ty tt) (h2 : StrTok nm nt) (h3 : EntsTok g ds T) (h4 : Before w) (h5 : DocTok g cs D) (h6 : Tail v) :
    BodyTok g (.mk ty nm ds (some cs)) (tt ++ (nt ++ (T ++ (w ++ '{' :: (D ++ '}' :: v))))) :=
  ⟨h1.starts (h2.starts.append _), fun total r hr => baseNode_block h1 h2 h3 (fun _ => h4 _ (Or.inr (Or.inl ⟨_, rfl⟩)))
    total (fun _ => h5 total _ (Or.inr ⟨_, rfl⟩)) (h6 r hr)⟩

/-! ### Documents -/

/-- `L` may precede a node or the end of a document. -/
def Lead (L : Str) : Prop := ∀ total r, Solid r → leadingItems (baseNode total) (L ++ r) = .ok L r

/-- `W` is a terminator followed by what may precede a node. -/
def Term (W : Str) : Prop := ∀ total r, Solid r → ∃ q L, nodeTerminator (W ++ r) = .ok () q ∧
  q.length < (W ++ r).length ∧ leadingItems (baseNode total) q = .ok L r

theorem Solid.leadStop {r : Str} (hr : Solid r) (total : Nat) :
    (Kdl.lineSpace <+> (do Kdl.slashdash; void (baseNode total))) r = .back := by
  rw [alt_right hr.lineSpace]
  exact bind_back hr.slashdash

theorem Lead.nil : Lead [] := by
  intro total r hr
  exact takeP_nil (rep0_nil (hr.leadStop total))

/-- Nodes one after the other. -/
inductive Items (g : Value → α) : List (SNode α) → Str → Prop
  | last {d : SNode α} {B W : Str} (hB : BodyTok g d B) (hW : W = [] ∨ Term W) : Items g [d] (B ++ W)
  | cons {d : SNode α} {ds : List (SNode α)} {B W T : Str} (hB : BodyTok g d B) (hW : Term W) (hT : Items g ds T) :
      Items g (d :: ds) (B ++ (W ++ T))

theorem Items.starts {ds : List (SNode α)} {T : Str} (h : Items g ds T) : Starts T := by
  cases h with
  | last hB => exact hB.1.append _
  | cons hB => exact hB.1.append _

omit [FloatIO] in
theorem semNode_setFormat (n : Node) (f : Option NodeFmt) : semNode g (n.setFormat f) = semNode g n := by
  cases n; rfl

theorem nodeF_end {total : Nat} {q r L : Str} (h : leadingItems (baseNode total) q = .ok L r) (hr : DocEnd r) :
    nodeF (baseNode total) q = .back := by
  unfold nodeF
  rw [bind_eq h]
  apply bind_back
  rw [baseNode_unfold]
  rcases hr with rfl | ⟨q, rfl⟩
  · exact bind_back rfl
  · exact bind_back (notP_back (alt_left (lit_one _ _)))

theorem nodeF_tok {total : Nat} {d : SNode α} {B p L r : Str} (hB : BodyTok g d B) (hr : NodeEnd r)
    (hp : leadingItems (baseNode total) p = .ok L (B ++ r)) :
    ∃ n, nodeF (baseNode total) p = .ok n r ∧ semNode g n = d := by
  obtain ⟨n, h1, h2⟩ := hB.2 total r hr
  unfold nodeF
  rw [bind_eq hp, bind_eq h1]
  exact ⟨_, rfl, by rw [semNode_setFormat, h2]⟩

theorem Term.nodeEnd {W r : Str} (h : Term W) (hr : Solid r) : NodeEnd (W ++ r) := by
  obtain ⟨q, L, h, _⟩ := h 0 r hr
  exact Or.inr (Or.inr ⟨_, _, h⟩)

theorem Items.nodes {ds : List (SNode α)} {T : Str} (h : Items g ds T) {r : Str} (hr : DocEnd r) (total : Nat) :
    ∀ {p L : Str}, leadingItems (baseNode total) p = .ok L (T ++ r) →
    ∃ n ns q q1 q2 u L', nodeF (baseNode total) p = .ok n q ∧ SepMore (nodeF (baseNode total)) nodeTerminator q ns q1 ∧
      semNodes g (n :: ns) = ds ∧ opt nodeTerminator q1 = .ok u q2 ∧ leadingItems (baseNode total) q2 = .ok L' r := by
  induction h with
  | @last d B W hB hW =>
    intro p L hp
    rw [List.append_assoc] at hp
    rcases hW with rfl | hW
    · rw [List.nil_append] at hp
      obtain ⟨n, h1, h2⟩ := nodeF_tok hB hr.nodeEnd hp
      exact ⟨n, [], r, r, r, _, _, h1, .nil hr.terminator, by simp [semNodes, h2], opt_none hr.terminator,
        Lead.nil total r hr.solid⟩
    · obtain ⟨n, h1, h2⟩ := nodeF_tok hB (hW.nodeEnd hr.solid) hp
      obtain ⟨q, L', h3, h4, h5⟩ := hW total r hr.solid
      exact ⟨n, [], W ++ r, W ++ r, q, _, L', h1, .stop h3 h4 (nodeF_end h5 hr), by simp [semNodes, h2], opt_some h3, h5⟩
  | @cons d ds B W T hB hW hT ih =>
    intro p L hp
    rw [List.append_assoc, List.append_assoc] at hp
    have hs := (hT.starts.append r).solid
    obtain ⟨n, h1, h2⟩ := nodeF_tok hB (hW.nodeEnd hs) hp
    obtain ⟨q, L', h3, h4, h5⟩ := hW total _ hs
    obtain ⟨n', ns, q', q1, q2, u, L'', h6, h7, h8, h9, h10⟩ := ih h5
    exact ⟨n, n' :: ns, _, q1, q2, u, L'', h1, .cons h3 h4 h6 h7, by rw [semNodes, h2, h8], h9, h10⟩

omit [FloatIO] in
theorem giveLeading_sem (l : Str) (ns : List Node) : semNodes g (giveLeading l ns).2 = semNodes g ns := by
  cases ns with
  | nil => rfl
  | cons n ns =>
    unfold giveLeading
    simp only
    split
    · rfl
    · simp only [semNodes, semNode_setFormat]

theorem DocTok.items {ds : List (SNode α)} {L T : Str} (hL : Lead L) (hT : Items g ds T) : DocTok g ds (L ++ T) := by
  intro total r hr
  rw [List.append_assoc]
  have hs := hT.starts.append r
  obtain ⟨n, ns, q, q1, q2, u, L', h1, h2, h3, h4, h5⟩ := hT.nodes hr total (Lead.nil total _ hs.solid)
  unfold nodesF
  have h6 : sep0 (nodeF (baseNode total)) nodeTerminator (T ++ r) = .ok (n :: ns) q1 := by
    have := sepMore_of (Strict.nodeF (Strict.baseNode total)).sfx h2
    rw [List.nil_append] at h1
    unfold sep0
    rw [h1]
    simp only
    rw [this]
  rw [bind_eq (hL total _ hs.solid), bind_here, bind_eq h6, bind_here, bind_eq h4, bind_eq h5]
  refine ⟨_, rfl, ?_⟩
  have := giveLeading_sem (g := g) L (n :: ns)
  rw [h3] at this
  exact this

theorem DocTok.empty {L : Str} (hL : Lead L) : DocTok g [] L := by
  intro total r hr
  have hl : leadingItems (baseNode total) r = .ok [] r := Lead.nil total r hr.solid
  have h1 : sep0 (nodeF (baseNode total)) nodeTerminator r = .ok [] r := by
    unfold sep0
    rw [nodeF_end hl hr]
  unfold nodesF
  rw [bind_eq (hL total r hr.solid), bind_here, bind_eq h1, bind_here, bind_eq (opt_none hr.terminator), bind_eq hl]
  exact ⟨_, rfl, rfl⟩

/-- A whole document. -/
theorem DocTok.parse {ds : List (SNode α)} {D : Str} (h : DocTok g ds D) (hb : ∀ q, D ≠ Char.ofNat 0xFEFF :: q) :
    ∃ d, Document.parse D = .ok d ∧ semDoc g d = ds := by
  obtain ⟨d, h1, h2⟩ := h (utf8Len D) [] (Or.inl rfl)
  rw [List.append_nil] at h1
  refine ⟨d, ?_, h2⟩
  unfold Document.parse tryParse
  have h3 : documentP (utf8Len D) D = .ok d [] := by
    unfold documentP
    have h4 : opt (takeP bom) D = .ok none D := opt_none (takeP_back (lit_back.mpr hb))
    have h5 : cutErr eof ([] : Str) = .ok () [] := rfl
    rw [bind_eq h4, bind_eq h1, bind_eq h5]
    rfl
  rw [bind_eq h3]
  rfl

/-! ### Blank text -/

omit [FloatIO] in
theorem newline_ok {c : Char} (h : Newline c) (q : Str) :
    (c = '\r' ∧ ∃ q', q = '\n' :: q' ∧ newline (c :: q) = .ok () q') ∨ newline (c :: q) = .ok () q := by
  by_cases h1 : c = '\r' ∧ ∃ q', q = '\n' :: q'
  · obtain ⟨rfl, q', rfl⟩ := h1
    exact Or.inl ⟨rfl, q', rfl, rfl⟩
  · refine Or.inr (newline_cons h ?_)
    by_cases hc : c = '\r'
    · exact Or.inr fun q' e' => h1 ⟨hc, q', e'⟩
    · exact Or.inl hc

omit [FloatIO] in
theorem split_spaces : ∀ w : Str, ∃ a b, w = a ++ b ∧ (∀ c ∈ a, Space c) ∧ ∀ c q, b = c :: q → ¬ Space c
  | [] => ⟨[], [], rfl, (by rintro _ ⟨⟩), by rintro _ _ ⟨⟩⟩
  | c :: w => by
    by_cases h : Space c
    · obtain ⟨a, b, rfl, h1, h2⟩ := split_spaces w
      exact ⟨c :: a, b, rfl, by simpa [h] using h1, h2⟩
    · exact ⟨[], c :: w, rfl, (by rintro _ ⟨⟩), by rintro _ _ ⟨⟩; exact h⟩

omit [FloatIO] in
/-- Blank text before something that is not blank is taken by `line_space`. -/
theorem rep0_lineBlank {q : P Unit} {r : Str} (hr : Solid r) (hq : (lineSpace <+> q) r = .back) :
    ∀ (n : Nat) (w : Str), w.length ≤ n → (∀ c ∈ w, Blank c) → ∃ l, rep0 (lineSpace <+> q) (w ++ r) = .ok l r := by
  intro n
  induction n with
  | zero =>
    intro w hw _
    have : w = [] := List.eq_nil_of_length_eq_zero (by omega)
    subst this
    exact ⟨[], rep0_nil hq⟩
  | succ n ih =>
    intro w hw hb
    obtain ⟨a, b, rfl, ha, hb'⟩ := split_spaces w
    have hbr : nodeSpace (b ++ r) = .back := by
      cases b with
      | nil => exact hr.nodeSpace
      | cons c b =>
        have hc := hb' c b rfl
        have hn : Newline c := (hb c (by simp)).resolve_left hc
        have f := newline_facts hn
        refine nodeSpace_back_of ?_ ?_ ?_
        · rintro _ _ ⟨⟩
          cases hs : isUnicodeSpace c
          · rfl
          · exact absurd (isUnicodeSpace_iff.mp hs) hc
        · intro q e; exact absurd (List.cons.inj e).1 f.1
        · intro q e; exact absurd (List.cons.inj e).1 f.2.1
    by_cases hn : a = []
    · subst hn
      cases b with
      | nil => exact ⟨[], rep0_nil hq⟩
      | cons c b =>
        have hc := hb' c b rfl
        have hnl : Newline c := (hb c (by simp)).resolve_left hc
        simp only [List.nil_append, List.cons_append] at hbr ⊢
        have step : ∀ x : Str, newline (c :: (b ++ r)) = .ok () x → lineSpace (c :: (b ++ r)) = .ok () x := by
          intro x hx
          unfold lineSpace
          rw [alt_right hbr]
          exact alt_left hx
        simp only [List.nil_append, List.length_cons] at hw
        rcases newline_ok hnl (b ++ r) with ⟨rfl, q', e, h⟩ | h
        · cases b with
          | nil =>
            rw [List.nil_append] at e
            exact absurd (Or.inr (by decide : Newline '\n')) (hr _ _ e).1
          | cons d b =>
            rw [List.cons_append, List.cons.injEq] at e
            obtain ⟨rfl, rfl⟩ := e
            rw [List.length_cons] at hw
            obtain ⟨l, hl⟩ := ih b (by omega) fun c hc => hb c (by simp [hc])
            exact ⟨() :: l, rep0_cons (alt_left (step _ h)) (by simp only [List.cons_append, List.length_cons]; omega) hl⟩
        · obtain ⟨l, hl⟩ := ih b (by omega) fun c hc => hb c (by simp [hc])
          exact ⟨() :: l, rep0_cons (alt_left (step _ h)) (by simp only [List.length_cons]; omega) hl⟩
    · have hp := List.length_pos_iff.mpr hn
      rw [List.length_append] at hw
      obtain ⟨l, hl⟩ := ih b (by omega) fun c hc => hb c (by simp [hc])
      rw [List.append_assoc]
      refine ⟨() :: l, rep0_cons (alt_left (alt_left (nodeSpace_spaces ha hn hbr))) ?_ hl⟩
      simp only [List.length_append]; omega

theorem Lead.blank {w : Str} (h : ∀ c ∈ w, Blank c) : Lead w := by
  intro total r hr
  obtain ⟨l, hl⟩ := rep0_lineBlank hr (hr.leadStop total) w.length w (Nat.le_refl _) h
  exact takeP_eq hl

/-- A semicolon. -/
theorem Term.semi {w : Str} (h : Lead w) : Term (';' :: w) := by
  intro total r hr
  exact ⟨w ++ r, w, alt_left (lit_one _ _), by simp, h total r hr⟩

/-- A newline and blank text. -/
theorem Term.blank {c : Char} {w : Str} (hc : Newline c) (h : ∀ c ∈ w, Blank c) : Term (c :: w) := by
  intro total r hr
  have hs : c ≠ ';' := by rintro rfl; revert hc; decide
  have step : ∀ x : Str, newline (c :: (w ++ r)) = .ok () x → nodeTerminator (c :: (w ++ r)) = .ok () x := by
    intro x hx
    unfold nodeTerminator
    rw [alt_right (lit_cons_ne (Ne.symm hs))]
    exact alt_left hx
  rcases newline_ok hc (w ++ r) with ⟨rfl, q', e, h'⟩ | h'
  · cases w with
    | nil =>
      rw [List.nil_append] at e
      exact absurd (Or.inr (by decide : Newline '\n')) (hr _ _ e).1
    | cons d w =>
      rw [List.cons_append, List.cons.injEq] at e
      obtain ⟨rfl, rfl⟩ := e
      exact ⟨_, _, step _ h', by simp only [List.cons_append, List.length_cons]; omega,
        Lead.blank (fun c hc => h c (by simp [hc])) total r hr⟩
  · exact ⟨_, _, step _ h', by simp, Lead.blank h total r hr⟩

/-- A line feed and whatever may precede a node. -/
theorem Term.lf {w : Str} (h : Lead w) : Term ('\n' :: w) := by
  intro total r hr
  exact ⟨w ++ r, w, rfl, by simp, h total r hr⟩

end

end Kdl
