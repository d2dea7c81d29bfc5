import Verif.Spec.Faulty
import Verif.Lemmas.DiagMoved
import Verif.Lemmas.Parser.Jam
/-
What the parser records about a mistaken word, and where it goes on.
-/

namespace Kdl
open Spec

theorem L.alt_cut {α : Type} {p q : L α} {s r : Str} {e : PErr} (h : p s = .cut e r) : (p <|+> q) s = .cut e r := by
  unfold L.alt
  rw [h]

theorem L.alt_right {α : Type} {p q : L α} {s r : Str} {e : PErr} (h : p s = .back e r) : (p <|+> q) s = q s := by
  unfold L.alt
  rw [h]

theorem L.bind_run {α β : Type} {p : L α} {f : α → L β} {s r : Str} {a : α} (h : p s = .ok a r) : (p >>= f) s = f a r := by
  change L.bind p f s = _
  unfold L.bind
  rw [h]

theorem L.bind_run_back {α β : Type} {p : L α} {f : α → L β} {s r : Str} {e : PErr} (h : p s = .back e r) :
    (p >>= f) s = .back e r := by
  change L.bind p f s = _
  unfold L.bind
  rw [h]

theorem L.bind_run_cut {α β : Type} {p : L α} {f : α → L β} {s r : Str} {e : PErr} (h : p s = .cut e r) :
    (p >>= f) s = .cut e r := by
  change L.bind p f s = _
  unfold L.bind
  rw [h]

theorem L.lit_back {t s : Str} (h : Kdl.lit t s = .back) : L.lit t s = .back {} s := by
  unfold Kdl.lit at h
  unfold L.lit
  cases hs : stripPrefix? t s with
  | none => rfl
  | some r => rw [hs] at h; cases h

theorem D.bind_run_cut {α β : Type} {p : D α} {f : α → D β} {s r : Str} {e : PErr} {g : Option Region} {l l' : List Rec}
    (h : p s l = .cut e g r l') : (p >>= f) s l = .cut e g r l' := by
  change D.bind p f s l = _
  unfold D.bind
  rw [h]

theorem ident_starts {c : Char} (h : IdentChar c) (q : Str) : Starts (c :: q) := ⟨c, q, rfl, Or.inl h⟩

/-- Nothing ends in front of an identifier character. -/
theorem valueTerminatorL_ident {c : Char} (h : IdentChar c) (q : Str) : valueTerminatorL (c :: q) = .back {} (c :: q) := by
  have f := Start.facts (c := c) (Or.inl h)
  have ne : ∀ d t, d ≠ c → L.lit (d :: t) (c :: q) = .back {} (c :: q) := fun d t hd => L.lit_back (lit_cons_ne hd)
  obtain ⟨e, r, hs⟩ := LTr.nodeSpace.backs (ident_starts h q).solid.nodeSpace
  obtain ⟨e', r', hn⟩ := LTr.newline.backs (s := c :: q) (newline_back (by
    rintro _ _ ⟨⟩ hn
    exact f.1 (Or.inr hn)))
  unfold valueTerminatorL
  rw [L.alt_right (show L.eof (c :: q) = .back {} (c :: q) from rfl), L.alt_right (ne _ _ (Ne.symm f.2.2.2.2.2.1)),
    L.alt_right (ne _ _ (Ne.symm f.2.2.2.2.2.2.2)), L.alt_right (ne _ _ (Ne.symm f.2.2.2.1)),
    L.alt_right (ne _ _ (Ne.symm f.2.2.2.2.1)), L.alt_right hs]
  unfold nodeTerminatorL
  rw [L.alt_right (ne _ _ (Ne.symm f.2.2.2.2.2.2.1)), L.alt_right hn]
  unfold singleLineCommentL
  exact L.bind_run_back (ne _ _ (Ne.symm f.2.1))

theorem valueTerminator_ident {c : Char} (h : IdentChar c) (q : Str) : valueTerminator (c :: q) = .back := by
  have := (LTr.valueTerminator (c :: q)).1
  rw [valueTerminatorL_ident h q] at this
  exact this.symm

/-- The error for a value that goes on too long. -/
theorem checkL_ident {c : Char} (h : IdentChar c) (q : Str) :
    valueTerminatorCheckL (c :: q) = .cut ⟨none, none, some longHelp⟩ (c :: q) := by
  unfold valueTerminatorCheckL L.cutErr L.ctx L.peek
  rw [valueTerminatorL_ident h q]
  rfl

/-- The parser goes on behind the word. -/
theorem badval_any {z q : Str} (hne : z ≠ []) (hz : ∀ c ∈ z.tail, IdentChar c) (hq : Ends q) : badval (z ++ q) = .ok () q := by
  cases z with
  | nil => exact absurd rfl hne
  | cons c z =>
    unfold badval
    rw [List.cons_append, bind_eq (show anyChar (c :: (z ++ q)) = .ok c (z ++ q) from rfl)]
    have key : ∀ z : Str, (∀ c ∈ z, IdentChar c) → RepTill anyChar (peek valueTerminator) (z ++ q) z () q := by
      intro z
      induction z with
      | nil =>
        intro _
        obtain ⟨u, r, h⟩ := hq
        exact .nil (peek_eq h)
      | cons c z ih =>
        intro hz
        refine .cons ?_ rfl (by simp) (ih fun x hx => hz x (List.mem_cons_of_mem _ hx))
        unfold peek
        rw [List.cons_append, valueTerminator_ident (hz c (List.mem_cons_self ..))]
    exact void_eq (repTill_of (key z hz))

theorem badval_run {z q : Str} (hne : z ≠ []) (hz : ∀ c ∈ z, IdentChar c) (hq : Ends q) : badval (z ++ q) = .ok () q :=
  badval_any hne (fun c hc => hz c (List.mem_of_mem_tail hc)) hq

/-- A reserved word. -/
theorem identStringL_reserved {x q : Str} (h : x ∈ reserved) (hx : x ≠ "-inf".toList) (hq : Stop q) :
    identifierStringL (x ++ q) = .cut {} (x ++ q) := by
  have key : ∀ y ∈ reserved, y ≠ "-inf".toList → ∃ c w, y = c :: w ∧ Plainly c ∧ IdentChar c ∧ ∀ d ∈ w, IdentChar d := by
    intro y hy hne
    simp only [reserved, List.mem_cons, List.not_mem_nil, or_false] at hy
    rcases hy with rfl | rfl | rfl | rfl | rfl | rfl
    · exact ⟨'t', "rue".toList, rfl, by unfold Plainly; decide, by decide, by decide⟩
    · exact ⟨'f', "alse".toList, rfl, by unfold Plainly; decide, by decide, by decide⟩
    · exact ⟨'n', "ull".toList, rfl, by unfold Plainly; decide, by decide, by decide⟩
    · exact ⟨'i', "nf".toList, rfl, by unfold Plainly; decide, by decide, by decide⟩
    · exact absurd rfl hne
    · exact ⟨'n', "an".toList, rfl, by unfold Plainly; decide, by decide, by decide⟩
  obtain ⟨c, w, rfl, hp, hc, hw⟩ := key x h hx
  have h1 := (LTr.rep1 .identifierChar).ok (rep1_ident hc hw hq)
  have hu : unambiguousIdentL (c :: (w ++ q)) = .cut {} (c :: (w ++ q)) := by
    unfold unambiguousIdentL
    rw [L.bind_run ((LTr.notP (.alt (.void .digit1) (.alt (.alt (.lit _) (.lit _)) (.lit _)))).ok (unamb_guard hp)),
      L.bind_run ((LTr.peek .identifierChar).ok (peek_eq (identifierChar_eq hc)))]
    unfold L.cutErr L.void
    rw [L.bind_run_back (e := {}) (r := c :: (w ++ q))]
    unfold L.tryMap
    rw [h1]
    simp only [keyword_mem.mpr h, if_true]
  unfold identifierStringL
  change (L.here >>= _) _ = _
  rw [L.bind_run (show L.here (c :: w ++ q) = .ok _ _ from rfl)]
  refine L.bind_run_cut ?_
  unfold L.alt
  rw [List.cons_append, hu]

/-- A number with a letter behind it. -/
theorem numberL_letter [FloatIO] {sg ds y : Str} {k : Int} {c l : Char} (hs : Sign sg k) (hc : IsDigit 10 c)
    (hd : ∀ x ∈ ds, x = '_' ∨ IsDigit 10 x) (hv : litVal 10 (c :: ds) < 2 ^ 127) (hl : IdentChar l) (hl' : ¬ IsDigit 10 l)
    (hp : l ∉ ['_', '.', 'e', 'E']) (hb : c = '0' → ds = [] → l ∉ "xXoObB".toList) :
    numberL (sg ++ c :: (ds ++ l :: y)) = .cut ⟨none, some "integer", some longHelp⟩ (l :: y) := by
  have hd' : Digits isDecDigit c ds := ⟨isDigit_iff.1.mp hc, fun x hx => by
    have := hd x hx
    simp only [isGrp, Bool.or_eq_true, beq_iff_eq]
    exact this.symm.imp isDigit_iff.1.mp id⟩
  have hr : ∀ x q, l :: y = x :: q → isGrp isDecDigit x = false := by
    rintro x q ⟨⟩
    cases hg : isGrp isDecDigit l with
    | false => rfl
    | true =>
      simp only [isGrp, Bool.or_eq_true, beq_iff_eq] at hg
      rcases hg with hg | rfl
      · exact absurd (isDigit_iff.1.mpr hg) hl'
      · simp at hp
  have hfc := dec_facts (hex_of_dec hd'.1)
  obtain ⟨b, hsig, hbk⟩ := signum_sign hs (c := c) (q := ds ++ l :: y) hfc.1 hfc.2.1
  have hrd := reads_udecimal hd' hr
  have hback : uhex (c :: (ds ++ l :: y)) = .back ∧ uoctal (c :: (ds ++ l :: y)) = .back ∧ ubinary (c :: (ds ++ l :: y)) = .back := by
    by_cases hz : c = '0'
    case neg =>
      have hz' : '0' ≠ c := fun h => hz h.symm
      have h : ∀ d, lit ['0', d] (c :: (ds ++ l :: y)) = .back := by
        intro d
        rw [lit_back]
        rintro r h
        exact hz (List.cons.inj h).1
      refine ⟨?_, ?_, ?_⟩
      · unfold uhex; exact bind_back (alt_right (h _) ▸ h _)
      · unfold uoctal; exact bind_back (alt_right (h _) ▸ h _)
      · unfold ubinary; exact bind_back (alt_right (h _) ▸ h _)
    have hfacts : ∀ d q, ds ++ l :: y = d :: q →
        (d ≠ 'x' ∧ d ≠ 'X') ∧ (d ≠ 'o' ∧ d ≠ 'O') ∧ (d ≠ 'b' ∧ d ≠ 'B') := by
      intro d q e
      cases ds with
      | nil =>
        have := hb hz rfl
        obtain ⟨rfl, _⟩ := List.cons.inj e
        refine ⟨⟨?_, ?_⟩, ⟨?_, ?_⟩, ⟨?_, ?_⟩⟩ <;> rintro rfl <;> exact this (by decide)
      | cons d' ds' =>
        cases e
        have := hd'.2 d (List.mem_cons_self ..)
        refine ⟨⟨?_, ?_⟩, ⟨?_, ?_⟩, ⟨?_, ?_⟩⟩ <;> rintro rfl <;> revert this <;> decide
    cases hq : ds ++ l :: y with
    | nil => simp at hq
    | cons d q =>
      have := hfacts d q hq
      exact ⟨prefixed_back.1 this.1, prefixed_back.2.1 this.2.1, prefixed_back.2.2 this.2.2⟩
  obtain ⟨e1, r1, h1⟩ := LTr.hex.backs (signedP_back hsig hback.1 : hex (sg ++ c :: (ds ++ l :: y)) = .back)
  obtain ⟨e2, r2, h2⟩ := LTr.octal.backs (signedP_back hsig hback.2.1 : octal (sg ++ c :: (ds ++ l :: y)) = .back)
  obtain ⟨e3, r3, h3⟩ := LTr.binary.backs (signedP_back hsig hback.2.2 : binary (sg ++ c :: (ds ++ l :: y)) = .back)
  obtain ⟨v, h4, h5⟩ := hrd.1 (by
    have : i128Max = 2 ^ 127 - 1 := rfl
    rw [this]
    omega)
  obtain ⟨z, h6, _⟩ := signedP_ok hsig hbk hs.cases h4 h5
  have h6' : decimalL (sg ++ c :: (ds ++ l :: y)) = .ok z (l :: y) := LTr.decimal.ok h6
  obtain ⟨e4, r4, hf⟩ := LTr.floatValue.backs (s := sg ++ c :: (ds ++ l :: y)) (float_back hsig (by
    rw [(take_digits hd' hr).2]
    rintro x q ⟨⟩
    simp only [List.mem_cons, List.not_mem_nil, or_false, not_or] at hp
    exact ⟨hp.2.1, hp.2.2.1, hp.2.2.2⟩))
  unfold numberL
  rw [L.alt_right hf]
  unfold integerValueL
  refine L.bind_run_cut ?_
  have cx : ∀ {p : L I128} {e r : _} {cx : PErr}, p (sg ++ c :: (ds ++ l :: y)) = .back e r →
      L.ctx cx (do let i ← p; valueTerminatorCheckL; return i) (sg ++ c :: (ds ++ l :: y)) = .back (cx.within e) r := by
    intro p e r cx h
    unfold L.ctx
    rw [L.bind_run_back h]
  rw [L.alt_right (cx h1), L.alt_right (cx h2), L.alt_right (cx h3)]
  unfold L.ctx
  rw [L.bind_run h6', L.bind_run_cut (checkL_ident hl y)]
  rfl

/-- The beginning of a number with another base than ten, with no digit behind it. -/
theorem numberL_noDigit [FloatIO] {sg pre y : Str} {k : Int} {radix : Nat} {l : Char} (hs : Sign sg k) (hb : Base pre radix)
    (hne : pre ≠ []) (hl' : ¬ IsDigit radix l) :
    numberL (sg ++ (pre ++ l :: y)) = .cut ⟨none, some (baseName radix), none⟩ (l :: y) := by
  have hg : baseDigit radix l = false := by
    cases hg : baseDigit radix l with
    | false => rfl
    | true => exact absurd ((isDigit_baseDigit hb).mpr hg) hl'
  obtain ⟨x, rfl, hx⟩ : ∃ x, pre = ['0', x] ∧ x ∈ "xXoObB".toList := by
    cases hb <;> first | exact absurd rfl hne | exact ⟨_, rfl, by decide⟩
  obtain ⟨b, hsig, hbk⟩ := signum_sign hs (c := '0') (q := x :: l :: y) (by decide) (by decide)
  obtain ⟨e4, r4, hf⟩ := LTr.floatValue.backs (s := sg ++ '0' :: x :: l :: y) (float_back hsig (by
    have hx' : ∀ x ∈ "xXoObB".toList, isGrp isDecDigit x = false ∧ x ≠ '.' ∧ x ≠ 'e' ∧ x ≠ 'E' := by decide
    have := hx' x hx
    rw [List.dropWhile_cons_of_pos (by decide), List.dropWhile_cons_of_neg (by simp [this.1])]
    rintro _ _ ⟨⟩
    exact this.2))
  have cx : ∀ {p : L I128} {e r : _} {cx : PErr} {s : Str}, p s = .back e r →
      L.ctx cx (do let i ← p; valueTerminatorCheckL; return i) s = .back (cx.within e) r := by
    intro p e r cx s h
    unfold L.ctx
    rw [L.bind_run_back h]
  have fin : ∀ {p : L I128} {q : L I128} {cx e : PErr} {s r : Str}, p s = .cut e r →
      ((L.ctx cx (do let i ← p; valueTerminatorCheckL; return i)) <|+> q) s = .cut (cx.within e) r := by
    intro p q cx e s r h
    unfold L.alt L.ctx
    rw [L.bind_run_cut h]
  have back : ∀ {p : P I128} {p' : L I128}, LTr p' (signedP p) → p ('0' :: x :: l :: y) = .back →
      ∃ e r, p' (sg ++ '0' :: x :: l :: y) = .back e r := fun h1 h2 => h1.backs (signedP_back hsig h2)
  have bad : ∀ {p : L I128} {e : PErr}, p ('0' :: x :: l :: y) = .cut e (l :: y) →
      signedL p (sg ++ '0' :: x :: l :: y) = .cut e (l :: y) := by
    intro p e h
    unfold signedL
    rw [L.bind_run (LTr.signum.ok hsig), L.bind_run_cut h]
  have grp : ∀ {f : Char → Bool} {g : Str → Option I128} {e : PErr} {n : String}, f l = false →
      L.ctx { label := some n } (.tryMap (.cutErr (digitGroupL f)) g e) (l :: y) = .cut ⟨none, some n, none⟩ (l :: y) := by
    intro f g e n h
    have : digitGroupL f (l :: y) = .back {} (l :: y) := by
      unfold digitGroupL
      refine L.bind_run_back ?_
      unfold L.takeWhile1
      simp [h]
    unfold L.ctx L.tryMap L.cutErr
    rw [this]
    rfl
  have bin : ∀ {g : Str → Option I128} {e : PErr} {n : String}, baseDigit 2 l = false →
      L.ctx { label := some n } (.cutErr (.tryMap
        (do
          let x ← L.takeP (.lit ['0'] <|+> .lit ['1'])
          let xs ← L.rep0 (.takeP (.lit ['0'] <|+> .lit ['1'] <|+> .lit ['_']))
          return x ++ dropUnderscores xs.flatten) g e)) (l :: y) = .cut ⟨none, some n, none⟩ (l :: y) := by
    intro g e n h
    have h0 : '0' ≠ l := by rintro rfl; revert h; decide
    have h1 : '1' ≠ l := by rintro rfl; revert h; decide
    have : L.takeP (.lit ['0'] <|+> .lit ['1']) (l :: y) = .back {} (l :: y) := by
      unfold L.takeP
      rw [L.bind_run (show L.here (l :: y) = .ok (l :: y) (l :: y) from rfl)]
      refine L.bind_run_back ?_
      rw [L.alt_right (L.lit_back (lit_cons_ne h0)), L.lit_back (lit_cons_ne h1)]
    unfold L.ctx L.cutErr L.tryMap
    rw [L.bind_run_back this]
    rfl
  change numberL (sg ++ '0' :: x :: l :: y) = _
  unfold numberL
  rw [L.alt_right hf]
  unfold integerValueL
  refine L.bind_run_cut ?_
  cases hb with
  | hex =>
    have hz : uhexL ('0' :: 'x' :: l :: y) = .cut ⟨none, some "hexadecimal", none⟩ (l :: y) := by
      unfold uhexL
      refine (L.bind_run (r := l :: y) (a := ()) ?_).trans (grp hg)
      rfl
    exact fin (bad hz)
  | hexU =>
    have hz : uhexL ('0' :: 'X' :: l :: y) = .cut ⟨none, some "hexadecimal", none⟩ (l :: y) := by
      unfold uhexL
      refine (L.bind_run (r := l :: y) (a := ()) ?_).trans (grp hg)
      rfl
    exact fin (bad hz)
  | oct =>
    obtain ⟨e1, r1, h1⟩ := back LTr.hex (prefixed_back.1 (by decide))
    rw [L.alt_right (cx h1)]
    have hz : uoctalL ('0' :: 'o' :: l :: y) = .cut ⟨none, some "octal", none⟩ (l :: y) := by
      unfold uoctalL
      refine (L.bind_run (r := l :: y) (a := ()) ?_).trans (grp hg)
      rfl
    exact fin (bad hz)
  | octU =>
    obtain ⟨e1, r1, h1⟩ := back LTr.hex (prefixed_back.1 (by decide))
    rw [L.alt_right (cx h1)]
    have hz : uoctalL ('0' :: 'O' :: l :: y) = .cut ⟨none, some "octal", none⟩ (l :: y) := by
      unfold uoctalL
      refine (L.bind_run (r := l :: y) (a := ()) ?_).trans (grp hg)
      rfl
    exact fin (bad hz)
  | bin =>
    obtain ⟨e1, r1, h1⟩ := back LTr.hex (prefixed_back.1 (by decide))
    obtain ⟨e2, r2, h2⟩ := back LTr.octal (prefixed_back.2.1 (by decide))
    rw [L.alt_right (cx h1), L.alt_right (cx h2)]
    have hz : ubinaryL ('0' :: 'b' :: l :: y) = .cut ⟨none, some "binary", none⟩ (l :: y) := by
      unfold ubinaryL
      refine (L.bind_run (r := l :: y) (a := ()) ?_).trans (bin hg)
      rfl
    exact fin (bad hz)
  | binU =>
    obtain ⟨e1, r1, h1⟩ := back LTr.hex (prefixed_back.1 (by decide))
    obtain ⟨e2, r2, h2⟩ := back LTr.octal (prefixed_back.2.1 (by decide))
    rw [L.alt_right (cx h1), L.alt_right (cx h2)]
    have hz : ubinaryL ('0' :: 'B' :: l :: y) = .cut ⟨none, some "binary", none⟩ (l :: y) := by
      unfold ubinaryL
      refine (L.bind_run (r := l :: y) (a := ()) ?_).trans (bin hg)
      rfl
    exact fin (bad hz)

/-- A number with another base than ten, with a letter behind it. -/
theorem numberL_base [FloatIO] {sg pre ds y : Str} {k : Int} {radix : Nat} {c l : Char} (hs : Sign sg k) (hb : Base pre radix)
    (hne : pre ≠ []) (hc : IsDigit radix c) (hd : ∀ x ∈ ds, x = '_' ∨ IsDigit radix x) (hv : litVal radix (c :: ds) < 2 ^ 127)
    (hl : IdentChar l) (hl' : ¬ IsDigit radix l) (hp : l ≠ '_') :
    numberL (sg ++ (pre ++ c :: (ds ++ l :: y))) = .cut ⟨none, some (baseName radix), some longHelp⟩ (l :: y) := by
  have hv' : (litVal radix (c :: ds) : Int) ≤ i128Max := by
    have : i128Max = 2 ^ 127 - 1 := rfl
    rw [this]
    omega
  have hd' := digits_of hb hc hd
  have hr : ∀ x q, l :: y = x :: q → isGrp (baseDigit radix) x = false := by
    rintro x q ⟨⟩
    cases hg : isGrp (baseDigit radix) l with
    | false => rfl
    | true =>
      simp only [isGrp, Bool.or_eq_true, beq_iff_eq] at hg
      rcases hg with hg | rfl
      · exact absurd ((isDigit_baseDigit hb).mpr hg) hl'
      · exact absurd rfl hp
  obtain ⟨x, rfl, hx⟩ : ∃ x, pre = ['0', x] ∧ x ∈ "xXoObB".toList := by
    cases hb <;> first | exact absurd rfl hne | exact ⟨_, rfl, by decide⟩
  obtain ⟨b, hsig, hbk⟩ := signum_sign hs (c := '0') (q := x :: c :: (ds ++ l :: y)) (by decide) (by decide)
  obtain ⟨e4, r4, hf⟩ := LTr.floatValue.backs (s := sg ++ '0' :: x :: c :: (ds ++ l :: y)) (float_back hsig (by
    have hx' : ∀ x ∈ "xXoObB".toList, isGrp isDecDigit x = false ∧ x ≠ '.' ∧ x ≠ 'e' ∧ x ≠ 'E' := by decide
    have := hx' x hx
    rw [List.dropWhile_cons_of_pos (by decide), List.dropWhile_cons_of_neg (by simp [this.1])]
    rintro _ _ ⟨⟩
    exact this.2))
  have cx : ∀ {p : L I128} {e r : _} {cx : PErr} {s : Str}, p s = .back e r →
      L.ctx cx (do let i ← p; valueTerminatorCheckL; return i) s = .back (cx.within e) r := by
    intro p e r cx s h
    unfold L.ctx
    rw [L.bind_run_back h]
  have fin : ∀ {p : L I128} {q : L I128} {cx : PErr} {s : Str} {z : I128}, p s = .ok z (l :: y) →
      ((L.ctx cx (do let i ← p; valueTerminatorCheckL; return i)) <|+> q) s = .cut (cx.within ⟨none, none, some longHelp⟩) (l :: y) := by
    intro p q cx s z h
    unfold L.alt L.ctx
    rw [L.bind_run h, L.bind_run_cut (checkL_ident hl y)]
  have back : ∀ {p : P I128} {p' : L I128}, LTr p' (signedP p) → p ('0' :: x :: c :: (ds ++ l :: y)) = .back →
      ∃ e r, p' (sg ++ '0' :: x :: c :: (ds ++ l :: y)) = .back e r := fun h1 h2 => h1.backs (signedP_back hsig h2)
  have good : ∀ {p : P I128} {p' : L I128} {m : Nat}, LTr p' (signedP p) →
      (∃ v : I128, p ('0' :: x :: c :: (ds ++ l :: y)) = .ok v (l :: y) ∧ v.val = m) →
      ∃ z, p' (sg ++ '0' :: x :: c :: (ds ++ l :: y)) = .ok z (l :: y) := by
    rintro p p' m h1 ⟨v, h4, h5⟩
    obtain ⟨z, h6, _⟩ := signedP_ok hsig hbk hs.cases h4 h5
    exact ⟨z, h1.ok h6⟩
  change numberL (sg ++ '0' :: x :: c :: (ds ++ l :: y)) = _
  unfold numberL
  rw [L.alt_right hf]
  unfold integerValueL
  refine L.bind_run_cut ?_
  cases hb with
  | hex =>
    obtain ⟨z, hz⟩ := good LTr.hex ((reads_uhex (Or.inl rfl) hd' hr).1 hv')
    exact fin hz
  | hexU =>
    obtain ⟨z, hz⟩ := good LTr.hex ((reads_uhex (Or.inr rfl) hd' hr).1 hv')
    exact fin hz
  | oct =>
    obtain ⟨e1, r1, h1⟩ := back LTr.hex (prefixed_back.1 (by decide))
    obtain ⟨z, hz⟩ := good LTr.octal ((reads_uoctal (Or.inl rfl) hd' hr).1 hv')
    rw [L.alt_right (cx h1)]
    exact fin hz
  | octU =>
    obtain ⟨e1, r1, h1⟩ := back LTr.hex (prefixed_back.1 (by decide))
    obtain ⟨z, hz⟩ := good LTr.octal ((reads_uoctal (Or.inr rfl) hd' hr).1 hv')
    rw [L.alt_right (cx h1)]
    exact fin hz
  | bin =>
    obtain ⟨e1, r1, h1⟩ := back LTr.hex (prefixed_back.1 (by decide))
    obtain ⟨e2, r2, h2⟩ := back LTr.octal (prefixed_back.2.1 (by decide))
    obtain ⟨z, hz⟩ := good LTr.binary ((reads_ubinary (Or.inl rfl) hd' hr).1 hv')
    rw [L.alt_right (cx h1), L.alt_right (cx h2)]
    exact fin hz
  | binU =>
    obtain ⟨e1, r1, h1⟩ := back LTr.hex (prefixed_back.1 (by decide))
    obtain ⟨e2, r2, h2⟩ := back LTr.octal (prefixed_back.2.1 (by decide))
    obtain ⟨z, hz⟩ := good LTr.binary ((reads_ubinary (Or.inr rfl) hd' hr).1 hv')
    rw [L.alt_right (cx h1), L.alt_right (cx h2)]
    exact fin hz

/-- A float with a letter behind it. -/
theorem numberL_float [FloatIO] {t y : Str} {l : Char} (ht : FloatLit t) (hl : IdentChar l) (hl' : ¬ IsDigit 10 l)
    (hp : l ∉ ['_', 'e', 'E']) : numberL (t ++ l :: y) = .cut ⟨none, some "float", some longHelp⟩ (l :: y) := by
  simp only [List.mem_cons, List.not_mem_nil, or_false, not_or] at hp
  have hr := floatLit_before ht (r := l :: y) (by
    rintro x q ⟨⟩
    cases hg : isGrp isDecDigit l with
    | false => rfl
    | true =>
      simp only [isGrp, Bool.or_eq_true, beq_iff_eq] at hg
      rcases hg with hg | rfl
      · exact absurd (isDigit_iff.1.mpr hg) hl'
      · exact absurd rfl hp.1) (by
    rintro x q ⟨⟩
    exact hp.2)
  have h1 := (LTr.takeP (.alt .floatExp .floatFrac)).ok (takeP_eq hr)
  have h2 : floatValueL (t ++ l :: y) = .cut ⟨none, some "float", some longHelp⟩ (l :: y) := by
    unfold floatValueL L.ctx
    rw [L.bind_run h1, L.bind_run_cut (checkL_ident hl y)]
    rfl
  unfold numberL L.alt
  rw [h2]

/-- No digit where one is expected. -/
theorem udecimalL_none {l : Char} {y : Str} (h : ¬ IsDigit 10 l) : udecimalL (l :: y) = .back {} (l :: y) := by
  have h' : isDecDigit l = false := by
    cases hg : isDecDigit l with
    | false => rfl
    | true => exact absurd (isDigit_iff.1.mpr hg) h
  have : digitGroupL isDecDigit (l :: y) = .back {} (l :: y) := by
    unfold digitGroupL
    refine L.bind_run_back ?_
    unfold L.takeWhile1
    simp [h']
  unfold udecimalL L.tryMap
  rw [this]

theorem floatL_cut [FloatIO] {s r : Str} {e : PErr} (h : floatExpL s = .cut e r) :
    numberL s = .cut (PErr.within { label := some "float" } e) r := by
  have h1 : L.takeP (floatExpL <|+> floatFracL) s = .cut e r := by
    unfold L.takeP
    rw [L.bind_run (show L.here s = .ok s s from rfl)]
    exact L.bind_run_cut (L.alt_cut h)
  have h2 : floatValueL s = .cut (PErr.within { label := some "float" } e) r := by
    unfold floatValueL L.ctx
    rw [L.bind_run_cut h1]
  unfold numberL
  exact L.alt_cut h2

/-- A float without digits behind its point. -/
theorem numberL_fraction [FloatIO] {sg ip y : Str} {k : Int} {l : Char} (hs : Sign sg k) (hip : Group ip) (hl' : ¬ IsDigit 10 l) :
    numberL (sg ++ (ip ++ '.' :: l :: y)) = .cut ⟨some fractionMessage, some "float", none⟩ (l :: y) := by
  obtain ⟨x, hx⟩ := hip.readSigned hs (r := '.' :: l :: y) (by rintro x q ⟨⟩; decide)
  have h1 : fractionL (l :: y) = .cut ⟨some fractionMessage, none, none⟩ (l :: y) := by
    unfold fractionL L.cutErr L.ctx
    rw [udecimalL_none hl']
    rfl
  have h2 : L.opt (do L.lit ['.']; fractionL) ('.' :: l :: y) = .cut ⟨some fractionMessage, none, none⟩ (l :: y) := by
    unfold L.opt
    rw [L.bind_run (show L.lit ['.'] ('.' :: l :: y) = .ok () (l :: y) from rfl), h1]
  have h3 : floatExpL (sg ++ (ip ++ '.' :: l :: y)) = .cut ⟨some fractionMessage, none, none⟩ (l :: y) := by
    unfold floatExpL
    rw [L.bind_run (LTr.decimal.ok hx)]
    exact L.bind_run_cut h2
  exact floatL_cut h3

/-- A float without digits in its exponent. -/
theorem numberL_exponent [FloatIO] {sg ip fp es y : Str} {k k' : Int} {e l : Char} (hs : Sign sg k) (hip : Group ip)
    (hfp : fp = [] ∨ ∃ ds, Group ds ∧ fp = '.' :: ds) (he : e = 'e' ∨ e = 'E') (hes : Sign es k') (hl' : ¬ IsDigit 10 l)
    (hsg : es = [] → l ∉ ['+', '-']) :
    numberL (sg ++ (ip ++ (fp ++ e :: (es ++ l :: y)))) = .cut ⟨some exponentMessage, some "float", some exponentHelp⟩ (l :: y) := by
  have he' : isGrp isDecDigit e = false := by rcases he with rfl | rfl <;> decide
  obtain ⟨x, hx⟩ := hip.readSigned hs (r := fp ++ e :: (es ++ l :: y)) (by
    rcases hfp with rfl | ⟨ds, _, rfl⟩
    · rintro x q ⟨⟩; exact he'
    · rintro x q ⟨⟩; decide)
  have h1 : ∃ o, L.opt (do L.lit ['.']; fractionL) (fp ++ e :: (es ++ l :: y)) = .ok o (e :: (es ++ l :: y)) := by
    rcases hfp with rfl | ⟨ds, hds, rfl⟩
    · have hd : '.' ≠ e := by rcases he with rfl | rfl <;> decide
      refine ⟨none, ?_⟩
      unfold L.opt
      rw [L.bind_run_back (show L.lit ['.'] ([] ++ e :: (es ++ l :: y)) = _ from L.lit_back (lit_cons_ne hd))]
      rfl
    · obtain ⟨z, hz, _⟩ := hds.read (r := e :: (es ++ l :: y)) (by rintro x q ⟨⟩; exact he')
      refine ⟨some z, ?_⟩
      have hf : fractionL (ds ++ e :: (es ++ l :: y)) = .ok z (e :: (es ++ l :: y)) := by
        unfold fractionL L.cutErr L.ctx
        rw [LTr.udecimal.ok hz]
      unfold L.opt
      rw [L.bind_run (show L.lit ['.'] ('.' :: ds ++ e :: (es ++ l :: y)) = .ok () (ds ++ e :: (es ++ l :: y)) from rfl), hf]
  obtain ⟨o, h1⟩ := h1
  have h2 : L.satisfy (fun c => c == 'e' || c == 'E') (e :: (es ++ l :: y)) = .ok e (es ++ l :: y) := by
    rcases he with rfl | rfl <;> rfl
  have h3 : ∃ o, L.opt (.satisfy fun c => c == '-' || c == '+') (es ++ l :: y) = .ok o (l :: y) := by
    cases hes with
    | none =>
      have := hsg rfl
      simp only [List.mem_cons, List.not_mem_nil, or_false, not_or] at this
      refine ⟨none, ?_⟩
      unfold L.opt L.satisfy
      simp [this]
    | plus => exact ⟨_, rfl⟩
    | minus => exact ⟨_, rfl⟩
  obtain ⟨o', h3⟩ := h3
  have h4 : floatExpL (sg ++ (ip ++ (fp ++ e :: (es ++ l :: y)))) = .cut ⟨some exponentMessage, none, some exponentHelp⟩ (l :: y) := by
    unfold floatExpL
    rw [L.bind_run (LTr.decimal.ok hx), L.bind_run h1, L.bind_run h2, L.bind_run h3]
    unfold L.void L.cutErr L.ctx
    refine L.bind_run_cut ?_
    rw [udecimalL_none hl']
    rfl
  exact floatL_cut h4

theorem reserved_ident {w : Str} (h : w ∈ reserved) : ∀ c ∈ w, IdentChar c := by
  have : ∀ w ∈ reserved, ∀ c ∈ w, IdentChar c := by decide
  exact this w h

theorem keywordL_cut {c : Char} {s : Str} (h1 : c ≠ '#') (h2 : c ≠ '"') (lb : ∀ w ∈ reserved, L.lit w (c :: s) = .back {} (c :: s)) :
    keywordL ('#' :: c :: s) = .cut ⟨none, some "keyword", some keywordHelp⟩ (c :: s) := by
  unfold keywordL
  rw [L.bind_run (show L.lit ['#'] ('#' :: c :: s) = .ok () (c :: s) from rfl)]
  have hn : L.notP (.satisfy fun c => c == '#' || c == '"') (c :: s) = .ok () (c :: s) := by
    have h1 : (c == '#' || c == '"') = false := by
      simp only [Bool.or_eq_false_iff, beq_eq_false_iff_ne]
      exact ⟨h1, h2⟩
    unfold L.notP L.satisfy
    simp only [h1]
    rfl
  rw [L.bind_run hn]
  have b : ∀ w ∈ reserved, ∀ v : Value, (do L.lit w; return v : L Value) (c :: s) = .back {} (c :: s) :=
    fun w hw v => L.bind_run_back (lb w hw)
  unfold L.ctx L.cutErr
  rw [L.alt_right (b _ (by decide) _), L.alt_right (b _ (by decide) _), L.alt_right (b _ (by decide) _),
    L.alt_right (b _ (by decide) _), L.alt_right (b _ (by decide) _), b _ (by decide) _]
  rfl

/-- A `#` in front of a word that is not a keyword. -/
theorem keywordL_other {y q : Str} (hne : y ≠ []) (hy : ∀ x ∈ y, IdentChar x) (hk : ∀ w ∈ reserved, ¬ w <+: y) (hq : Stop q) :
    keywordL ('#' :: (y ++ q)) = .cut ⟨none, some "keyword", some keywordHelp⟩ (y ++ q) := by
  have lb : ∀ w ∈ reserved, L.lit w (y ++ q) = .back {} (y ++ q) := by
    intro w hw
    refine L.lit_back (lit_back.mpr fun r e => ?_)
    rcases List.append_eq_append_iff.mp e with ⟨a, rfl, h2⟩ | ⟨a, rfl, h2⟩
    · cases a with
      | nil => exact hk _ hw (by simp)
      | cons c a =>
        have := hq c (a ++ r) h2
        rw [isDisallowedIdentChar_iff.mpr (reserved_ident hw c (by simp))] at this
        cases this
    · exact hk _ hw (List.prefix_append _ _)
  cases y with
  | nil => exact absurd rfl hne
  | cons c y =>
    have hc := hy c (List.mem_cons_self ..)
    exact keywordL_cut (by rintro rfl; revert hc; decide) (by rintro rfl; revert hc; decide) lb

/-- A `#` with no word behind it. -/
theorem keywordL_lone {c : Char} {s : Str} (h1 : c ≠ '#') (h2 : c ≠ '"') (h3 : ¬ IdentChar c) :
    keywordL ('#' :: c :: s) = .cut ⟨none, some "keyword", some keywordHelp⟩ (c :: s) := by
  refine keywordL_cut h1 h2 fun w hw => L.lit_back (lit_back.mpr fun r e => ?_)
  cases w with
  | nil => revert hw; decide
  | cons x w => exact h3 ((List.cons.inj e).1 ▸ reserved_ident hw x (List.mem_cons_self ..))

/-- The error recorded for a mistaken word. -/
def wordErr (what : String) (help : Option String) : PErr := ⟨none, some what, help⟩

theorem Spec.BadWord.starts {x : Str} {what : String} {help msg : Option String} (h : BadWord x what help msg) : Starts x := by
  have grp : ∀ {sg ip r : Str} {k : Int}, Sign sg k → Group ip → Starts (sg ++ (ip ++ r)) := by
    intro sg ip r k hs hip
    obtain ⟨c, ds, rfl, hd⟩ := hip.head
    have hc' := isDisallowedIdentChar_iff.mp (hex_not_disallowed (hex_of_dec hd.1))
    cases hs with
    | none => exact ident_starts hc' _
    | plus => exact ident_starts (by decide) _
    | minus => exact ident_starts (by decide) _
  cases h with
  | number hs hc hd =>
    have hc' := isDisallowedIdentChar_iff.mp (hex_not_disallowed (hex_of_dec (isDigit_iff.1.mp hc)))
    cases hs with
    | none => exact ident_starts hc' _
    | plus => exact ident_starts (by decide) _
    | minus => exact ident_starts (by decide) _
  | base hs hb hne =>
    cases hs with
    | none => cases hb <;> first | exact absurd rfl hne | exact ident_starts (by decide) _
    | plus => exact ident_starts (by decide) _
    | minus => exact ident_starts (by decide) _
  | noDigit hs hb hne =>
    cases hs with
    | none => cases hb <;> first | exact absurd rfl hne | exact ident_starts (by decide) _
    | plus => exact ident_starts (by decide) _
    | minus => exact ident_starts (by decide) _
  | float ht =>
    obtain ⟨sg, k, ip, fp, ex, hs, hip, _, _, _, rfl⟩ := ht
    obtain ⟨c, ds, rfl, hd⟩ := hip.head
    have hc' := isDisallowedIdentChar_iff.mp (hex_not_disallowed (hex_of_dec hd.1))
    cases hs with
    | none => exact ident_starts hc' _
    | plus => exact ident_starts (by decide) _
    | minus => exact ident_starts (by decide) _
  | fraction hs hip => exact grp hs hip
  | exponent hs hip => exact grp hs hip
  | keyword => exact ⟨_, _, rfl, Or.inr (Or.inl rfl)⟩
  | hash => exact ⟨_, _, rfl, Or.inr (Or.inl rfl)⟩

/-! ### Quoted strings -/

/-- Nothing ends in front of a backslash with an identifier character behind it. -/
theorem valueTerminator_escape {c : Char} (h : IdentChar c) (q : Str) : valueTerminator ('\\' :: c :: q) = .back := by
  have hs : ws ('\\' :: c :: q) = .back := ws_back_of (by rintro _ _ ⟨⟩; decide) (by rintro _ ⟨⟩)
  have f := Start.facts (c := c) (Or.inl h)
  have hs' : ws (c :: q) = .back := by
    refine ws_back_of ?_ ?_
    · rintro _ _ ⟨⟩
      cases hu : isUnicodeSpace c with
      | false => rfl
      | true => exact absurd (Or.inl (isUnicodeSpace_iff.mp hu)) f.1
    · rintro _ ⟨⟩
      exact f.2.1 rfl
  have hn : nodeSpace ('\\' :: c :: q) = .back := by
    unfold nodeSpace
    rw [alt_right]
    · unfold wsp; exact void_back (rep1_back hs)
    · rw [bind_eq (a := ()) (r := '\\' :: c :: q) (by unfold wss; exact void_eq (rep0_nil hs))]
      refine bind_back ?_
      unfold escline
      rw [bind_eq (lit_one _ _), bind_eq (a := ()) (r := c :: q) (by unfold wss; exact void_eq (rep0_nil hs'))]
      refine bind_back ?_
      rw [alt_right (show singleLineComment (c :: q) = .back from bind_back (lit_cons_ne (Ne.symm f.2.1))), alt_right (newline_back (by
        rintro _ _ ⟨⟩ hn
        exact f.1 (Or.inr hn)))]
      rfl
  unfold valueTerminator
  rw [alt_right (show eof ('\\' :: c :: q) = .back from rfl), alt_right (lit_cons_ne (by decide)),
    alt_right (lit_cons_ne (by decide)), alt_right (lit_cons_ne (by decide)), alt_right (lit_cons_ne (by decide)), alt_right hn]
  unfold nodeTerminator
  rw [alt_right (lit_cons_ne (by decide)), alt_right (newline_back (by
    rintro _ _ ⟨⟩
    decide))]
  unfold singleLineComment
  exact bind_back (lit_cons_ne (by decide))

/-- The parser goes on behind the string, or behind the text that follows it. -/
theorem quotedBadval_run {z q : Str} (hz : Unbroken z) (hq : Ends q) :
    quotedStringBadval (z ++ q) = .ok () q ∧ quotedStringBadval (z ++ '"' :: q) = .ok () q ∧
      quotedStringBadval (z ++ (['"', '"', '"'] ++ q)) = .ok () q := by
  have hend : quotedStringTerminator q = .ok () q := by
    obtain ⟨u, r, h⟩ := hq
    have hb := Ends.noQuote ⟨u, r, h⟩
    unfold quotedStringTerminator
    rw [alt_right (lit_back.mpr fun r e => hb _ e), alt_right (lit_back.mpr hb)]
    exact peek_eq h
  have hclose : quotedStringTerminator ('"' :: q) = .ok () q := by
    have hb := hq.noQuote
    unfold quotedStringTerminator
    rw [alt_right (lit_back.mpr ?_)]
    · exact alt_left (lit_one _ _)
    · intro r e
      exact hb _ (List.cons.inj e).2
  have go : ∀ c s, c ≠ '"' → valueTerminator (c :: s) = .back → quotedStringTerminator (c :: s) = .back := by
    intro c s h1 h2
    unfold quotedStringTerminator
    rw [alt_right (show lit tripleQuote (c :: s) = .back from lit_cons_ne (Ne.symm h1)), alt_right (lit_cons_ne (Ne.symm h1))]
    unfold peek
    rw [h2]
  have quote : ∀ {c : Char}, IdentChar c → c ≠ '"' := by
    rintro c h rfl
    revert h
    decide
  have item : ∀ c s, quotedStringTerminator (c :: s) = .back →
      (do notP quotedStringTerminator; anyChar : P Char) (c :: s) = .ok c s := by
    intro c s h
    rw [bind_eq (notP_eq h)]
    rfl
  have key : ∀ s, quotedStringTerminator s = .ok () q → quotedStringBadval (z ++ s) = .ok () q := by
    intro s hs
    have hr : ∃ l, RepTill (do notP quotedStringTerminator; anyChar : P Char) quotedStringTerminator (z ++ s) l () q := by
      induction hz with
      | nil => exact ⟨[], .nil hs⟩
      | @char c t h _ ih =>
        obtain ⟨l, hl⟩ := ih
        have h1 := go c (t ++ s) (quote h) (valueTerminator_ident h _)
        exact ⟨c :: l, .cons h1 (item _ _ h1) (by simp) hl⟩
      | @escape c t h _ ih =>
        obtain ⟨l, hl⟩ := ih
        have h1 := go c (t ++ s) (quote h) (valueTerminator_ident h _)
        have h2 := go '\\' (c :: (t ++ s)) (by decide) (valueTerminator_escape h _)
        exact ⟨_, .cons h2 (item _ _ h2) (by simp) (.cons h1 (item _ _ h1) (by simp) hl)⟩
    obtain ⟨l, hl⟩ := hr
    unfold quotedStringBadval
    rw [bind_eq (repTill_of hl)]
    exact hend
  exact ⟨key q hend, key _ hclose, key _ (alt_left (lit_append _ _))⟩

/-- One item of a single-line string. -/
def slItemL : L (Option Char) := do
  L.cutErr (.ctx { message := some "Unexpected newline in single-line quoted string",
                   help := some "You can make a string multi-line by wrapping it in '\"\"\"', with a newline immediately after the opening quotes." }
    (.notP newlineL))
  (do wsEscapeL; return none) <|+> (do let c ← stringCharL; return some c)

theorem LTr.slItem : LTr slItemL Kdl.slItem := by
  unfold Kdl.slItemL Kdl.slItem
  exact .bind (.cutErr (.ctx (.notP .newline))) fun _ => .alt (.bind .wsEscape fun _ => .pure _) (.bind .stringChar fun _ => .pure _)

/-- A mistake in a string is found behind the items in front of it. -/
theorem slBody_until {t v z : Str} (h : Quoted t v) (hz : ∀ a w, t = a ++ '\\' :: w → w ≠ [] → (∀ c ∈ w, Blank c) → NoBlank z)
    {e : PErr} {r : Str} (hf : ∀ m, z.length < m → L.repTillFuel slItemL (.peek (.lit ['"'])) m z = .back e r ∨
      L.repTillFuel slItemL (.peek (.lit ['"'])) m z = .cut e r) :
    ∀ m, (t ++ z).length < m → L.repTillFuel slItemL (.peek (.lit ['"'])) m (t ++ z) = .back e r ∨
      L.repTillFuel slItemL (.peek (.lit ['"'])) m (t ++ z) = .cut e r := by
  have step : ∀ {c : Char} {s q : Str} {a : Option Char}, c ≠ '"' → slItem (c :: s) = .ok a q → q.length < (c :: s).length →
      (∀ m, q.length < m → L.repTillFuel slItemL (.peek (.lit ['"'])) m q = .back e r ∨
        L.repTillFuel slItemL (.peek (.lit ['"'])) m q = .cut e r) →
      ∀ m, (c :: s).length < m → L.repTillFuel slItemL (.peek (.lit ['"'])) m (c :: s) = .back e r ∨
        L.repTillFuel slItemL (.peek (.lit ['"'])) m (c :: s) = .cut e r := by
    intro c s q a hc hi hl ih m hm
    cases m with
    | zero => omega
    | succ m =>
      have h1 := L.lit_back (show lit ['"'] (c :: s) = .back from lit_cons_ne (Ne.symm hc))
      have h2 := LTr.slItem.ok hi
      have h3 : L.peek (L.lit ['"']) (c :: s) = .back {} (c :: s) := by
        unfold L.peek
        rw [h1]
      have h4 := ih m (by omega)
      unfold L.repTillFuel
      rw [h3]
      simp only [h2, hl, if_true]
      rcases h4 with h4 | h4 <;> rw [h4] <;> simp
  induction h with
  | nil => exact hf
  | @plain c t v h1 h2 h3 h4 _ ih =>
    refine step h2 (slItem_char h3 (wsEscape_back' (by rintro q ⟨⟩; exact h1 rfl)) (stringChar_plain h1 h2 h4)) (by simp)
      (ih fun a w ht => hz (c :: a) w (by rw [ht]; rfl))
  | @escape e c t v h1 _ ih =>
    refine step (by decide) (slItem_char (by decide) (wsEscape_back (by rintro c' q ⟨⟩; exact (escape_not_blank h1).1))
        (alt_left (escapedChar_simple h1))) (by simp; omega) (ih fun a w ht => hz ('\\' :: e :: a) w (by rw [ht]; rfl))
  | @unicode hx t v c h1 h2 h3 h4 _ ih =>
    have e : '\\' :: 'u' :: '{' :: (hx ++ '}' :: t) ++ z =
        '\\' :: 'u' :: '{' :: (hx ++ '}' :: (t ++ z)) := by simp
    rw [e]
    exact step (by decide) (slItem_char (by decide) (wsEscape_back (by rintro c' q ⟨⟩; decide))
        (alt_left (escapedChar_unicode h1 h2 h3 h4))) (by simp; omega)
      (ih fun a w ht => hz ('\\' :: 'u' :: '{' :: (hx ++ '}' :: a)) w (by rw [ht]; simp))
  | @space w t v h1 h2 h3 _ ih =>
    have h3' : NoBlank (t ++ z) := by
      cases t with
      | nil => exact hz [] w (by simp) h1 h2
      | cons c t => rintro c' q ⟨⟩; exact h3 _ _ rfl
    have e : '\\' :: (w ++ t) ++ z = '\\' :: (w ++ (t ++ z)) := by simp
    rw [e]
    refine step (a := none) (by decide) ?_ (by simp; omega)
      (ih fun a w' ht => hz ('\\' :: (w ++ a)) w' (by rw [ht]; simp))
    unfold slItem
    rw [bind_eq (slItem_guard (by decide))]
    exact alt_left (by rw [bind_eq (wsEscape_eq h1 h2 h3')]; rfl)

/-- The body of a single-line string with a mistake. -/
theorem slBodyL_until {t v z : Str} (h : Quoted t v) (hz : ∀ a w, t = a ++ '\\' :: w → w ≠ [] → (∀ c ∈ w, Blank c) → NoBlank z)
    {e : PErr} {r : Str} (hq : ∀ q, z ≠ '"' :: q) (hi : slItemL z = .back e r ∨ slItemL z = .cut e r) :
    slBodyL (t ++ z) = .cut (PErr.within { label := some "quoted string" } e) r := by
  have h0 : ∀ m, z.length < m → L.repTillFuel slItemL (.peek (.lit ['"'])) m z = .back e r ∨
      L.repTillFuel slItemL (.peek (.lit ['"'])) m z = .cut e r := by
    intro m hm
    cases m with
    | zero => omega
    | succ m =>
      have h3 : L.peek (L.lit ['"']) z = .back {} z := by
        unfold L.peek
        rw [L.lit_back (lit_back.mpr hq)]
      unfold L.repTillFuel
      rw [h3]
      rcases hi with hi | hi <;> simp [hi]
  have h1 := slBody_until h hz h0 _ (Nat.lt_succ_self _)
  have hb : slBodyL = L.cutErr (L.ctx { label := some "quoted string" } (do
      let (cs, _) ← L.repTill slItemL (.peek (.lit ['"']))
      return cs.filterMap id)) := rfl
  rw [hb]
  unfold L.cutErr L.ctx
  rcases h1 with h1 | h1
  · rw [L.bind_run_back (show L.repTill slItemL (.peek (.lit ['"'])) (t ++ z) = _ from h1)]
  · rw [L.bind_run_cut (show L.repTill slItemL (.peek (.lit ['"'])) (t ++ z) = _ from h1)]

/-- An escape that does not exist. -/
theorem slItemL_escape {c : Char} {q : Str} (hc : IdentChar c) (he : c ∉ "bfnrts".toList) (hq : ∀ r, q ≠ '{' :: r) :
    slItemL ('\\' :: c :: q) = .back {} ('\\' :: c :: q) := by
  have hn := (LTr.cutErr (.ctx (c := { message := some "Unexpected newline in single-line quoted string", help := some "You can make a string multi-line by wrapping it in '\"\"\"', with a newline immediately after the opening quotes." }) (.notP .newline))).ok (slItem_guard (c := '\\') (t := c :: q) (by decide))
  have hw : wsEscape ('\\' :: c :: q) = .back := wsEscape_back (by
    rintro _ _ ⟨⟩ hb
    rcases hb with hb | hb
    · exact hc.1 hb
    · exact hc.2.1 hb)
  obtain ⟨e1, r1, hw⟩ := LTr.wsEscape.backs hw
  unfold slItemL
  rw [L.bind_run hn, L.alt_right (L.bind_run_back hw)]
  refine L.bind_run_back ?_
  have ne : ∀ d : Char, d ≠ c → L.lit [d] (c :: q) = .back {} (c :: q) := fun d hd => L.lit_back (lit_cons_ne hd)
  have hc' : ∀ d ∈ ['\\', '"'], d ≠ c := by
    rintro d hd rfl
    simp only [List.mem_cons, List.not_mem_nil, or_false] at hd
    rcases hd with rfl | rfl <;> revert hc <;> decide
  have he' : ∀ d ∈ "bfnrts".toList, d ≠ c := by
    rintro d hd rfl
    exact he hd
  have b : ∀ d (x : Char), d ≠ c → (do L.lit [d]; return x : L Char) (c :: q) = .back {} (c :: q) :=
    fun d x hd => L.bind_run_back (ne d hd)
  have hu : L.lit ['u', '{'] (c :: q) = .back {} (c :: q) := by
    refine L.lit_back (lit_back.mpr ?_)
    intro r e
    exact hq _ (List.cons.inj e).2
  have hesc : ∃ e, escapedCharL ('\\' :: c :: q) = .back e (c :: q) := by
    unfold escapedCharL
    rw [L.bind_run (show L.lit ['\\'] ('\\' :: c :: q) = .ok () (c :: q) from rfl),
      L.alt_right (r := c :: q) (e := {})]
    · unfold L.tryMap L.ctx
      rw [L.bind_run_back hu]
      exact ⟨_, rfl⟩
    · rw [L.alt_right (b _ _ (hc' _ (by decide))), L.alt_right (b _ _ (hc' _ (by decide))), L.alt_right (b _ _ (he' _ (by decide))),
        L.alt_right (b _ _ (he' _ (by decide))), L.alt_right (b _ _ (he' _ (by decide))), L.alt_right (b _ _ (he' _ (by decide))),
        L.alt_right (b _ _ (he' _ (by decide))), b _ _ (he' _ (by decide))]
  obtain ⟨e, hesc⟩ := hesc
  unfold stringCharL
  rw [L.alt_right hesc, L.bind_run ((LTr.notP .disallowedUnicode).ok (notP_eq (disallowedUnicode_back (by
    rintro _ _ ⟨⟩
    decide))))]
  rfl

section
variable [FloatIO] (total : Nat)

omit [FloatIO] in
/-- Behind an argument there is no equals sign. -/
theorem noEquals_run {r : Str} (hr : AfterEntry r) (l : List Rec) :
    D.lift (.opt (do let k ← L.takeP nodeSpace0L; equalsSignL; return k)) r l = .ok none r l := by
  obtain ⟨x, hx, hne⟩ := hr.2
  have hno : opt (do let k ← takeP nodeSpace0; equalsSign; return k) r = .ok none r := by
    apply opt_none
    have : ∃ w, takeP nodeSpace0 r = .ok w x := ⟨_, takeP_ok.mpr ⟨rfl, _, hx⟩⟩
    obtain ⟨w, hw⟩ := this
    rw [bind_eq hw]
    exact bind_back (lit_back.mpr hne)
  exact D.lift_run (.opt (.bind (.takeP .nodeSpace0) fun _ => .bind .equalsSign fun _ => .pure _)) hno l

/-- A value that is refused where an argument is expected. -/
def RefusedAt (e : PErr) (s q : Str) : Prop :=
  stringP s = .back ∧ (∀ r, s ≠ '(' :: r) ∧ ∃ z, (∀ l, valueBodyD s l = .cut e none z l) ∧ badval z = .ok () q

/-- A mistaken word where a value is expected. -/
theorem badWord_value {x q : Str} {what : String} {help msg : Option String} (h : BadWord x what help msg) (hq : Ends q) :
    RefusedAt ⟨msg, some what, help⟩ (x ++ q) q := by
  have hst := hq.stop
  have grp : ∀ {sg ip r : Str} {k : Int}, Sign sg k → Group ip → NumberLike (sg ++ (ip ++ r)) := by
    rintro sg ip r k hs ⟨c, t, rfl, hc, _⟩
    exact ⟨sg, k, [], c, t ++ r, hs, Or.inl rfl, hc, by simp⟩
  have num : ∀ {s z : Str} {what : String} {help msg : Option String}, NumberLike s → numberL s = .cut ⟨msg, some what, help⟩ z →
      badval z = .ok () q → RefusedAt ⟨msg, some what, help⟩ s q := by
    intro s z what help msg hs hn hb
    have ne : ∀ d : Char, d ∈ ['(', '#', '"'] → ∀ r, s ≠ d :: r := by
      obtain ⟨sg, k, pt, c, t, hs, hpt, hc, rfl⟩ := hs
      have hfc := dec_facts (hex_of_dec (isDigit_iff.1.mp hc))
      intro d hd r e
      simp only [List.mem_cons, List.not_mem_nil, or_false] at hd
      cases hs <;> rcases hpt with rfl | rfl <;> rcases hd with rfl | rfl | rfl <;> simp at e <;> first
        | exact hfc.2.2.2.2.2.1 e.1
        | exact hfc.2.2.2.1 e.1
        | exact hfc.2.2.2.2.1 e.1
    refine ⟨?_, ne _ (by decide), z, fun l => ?_, hb⟩
    · unfold stringP
      rw [alt_right (bind_back (identString_num hs)), alt_right (bind_back (rawString_back (ne _ (by decide))))]
      exact bind_back (quotedString_back (ne _ (by decide)))
    · obtain ⟨e1, r1, hk⟩ := D.lift_run_back LTr.keyword (keyword_back (ne _ (by decide))) l
      unfold valueBodyD D.alt
      rw [D.bind_run_back hk]
      simp only
      rw [D.bind_run_cut (e := ⟨msg, some what, help⟩) (g := none) (r := z) (l' := l)]
      unfold D.lift
      rw [hn]
  cases h with
  | @number sg ds y k c l' hs hc hd hv hl hl' hp hb hy =>
    have e : sg ++ c :: (ds ++ l' :: y) ++ q = sg ++ c :: (ds ++ l' :: (y ++ q)) := by simp
    rw [e]
    exact num ⟨sg, k, [], c, ds ++ l' :: (y ++ q), hs, Or.inl rfl, hc, by simp⟩
      (numberL_letter (y := y ++ q) hs hc hd hv hl hl' hp hb) (badval_run (z := l' :: y) (by simp) (by simpa [hl] using hy) hq)
  | @base sg pre ds y k radix c l' hs hb hne hc hd hv hl hl' hp hy =>
    have e : sg ++ (pre ++ c :: (ds ++ l' :: y)) ++ q = sg ++ (pre ++ c :: (ds ++ l' :: (y ++ q))) := by simp
    rw [e]
    refine num ?_ (numberL_base (y := y ++ q) hs hb hne hc hd hv hl hl' hp) (badval_run (z := l' :: y) (by simp) (by simpa [hl] using hy) hq)
    obtain ⟨x, rfl⟩ : ∃ x, pre = ['0', x] := by
      cases hb <;> first | exact absurd rfl hne | exact ⟨_, rfl⟩
    exact ⟨sg, k, [], '0', x :: c :: (ds ++ l' :: (y ++ q)), hs, Or.inl rfl, isDigit_iff.1.mpr (by decide), by simp⟩
  | @noDigit sg pre y k radix l' hs hb hne hl' hy =>
    have e : sg ++ (pre ++ l' :: y) ++ q = sg ++ (pre ++ l' :: (y ++ q)) := by simp
    rw [e]
    refine num ?_ (numberL_noDigit (y := y ++ q) hs hb hne hl') (badval_any (z := l' :: y) (by simp) hy hq)
    obtain ⟨x, rfl⟩ : ∃ x, pre = ['0', x] := by
      cases hb <;> first | exact absurd rfl hne | exact ⟨_, rfl⟩
    exact ⟨sg, k, [], '0', x :: l' :: (y ++ q), hs, Or.inl rfl, isDigit_iff.1.mpr (by decide), by simp⟩
  | @float t y l' ht hl hl' hp hy =>
    have e : t ++ l' :: y ++ q = t ++ l' :: (y ++ q) := by simp
    rw [e]
    exact num (floatLit_numberLike ht) (numberL_float (y := y ++ q) ht hl hl' hp) (badval_run (z := l' :: y) (by simp) (by simpa [hl] using hy) hq)
  | @fraction sg ip y k l' hs hip hl' hy =>
    have e : sg ++ (ip ++ '.' :: l' :: y) ++ q = sg ++ (ip ++ '.' :: l' :: (y ++ q)) := by simp
    rw [e]
    exact num (grp hs hip) (numberL_fraction (y := y ++ q) hs hip hl') (badval_any (z := l' :: y) (by simp) hy hq)
  | @exponent sg ip fp es y k k' e' l' hs hip hfp he hes hl' hsg hy =>
    have e : sg ++ (ip ++ (fp ++ e' :: (es ++ l' :: y))) ++ q = sg ++ (ip ++ (fp ++ e' :: (es ++ l' :: (y ++ q)))) := by simp
    rw [e]
    exact num (grp hs hip) (numberL_exponent (y := y ++ q) hs hip hfp he hes hl' hsg) (badval_any (z := l' :: y) (by simp) hy hq)
  | @keyword y hne hy hk =>
    have hn := keywordL_other hne hy hk hst
    obtain ⟨c, y', rfl⟩ : ∃ c y', y = c :: y' := by
      cases y with
      | nil => exact absurd rfl hne
      | cons c y => exact ⟨c, y, rfl⟩
    have hc := hy c (List.mem_cons_self ..)
    change RefusedAt _ ('#' :: (c :: y' ++ q)) q
    refine ⟨?_, (by rintro r ⟨⟩), c :: y' ++ q, fun l => ?_, badval_run hne hy hq⟩
    · refine stringP_hash (c := c) (q := y' ++ q) ?_ ?_ <;> rintro rfl <;> revert hc <;> decide
    · unfold valueBodyD D.alt
      rw [D.bind_run_cut (e := ⟨none, some "keyword", some keywordHelp⟩) (g := none) (r := c :: y' ++ q) (l' := l)]
      unfold D.lift
      rw [hn]

  | @hash y c h1 h2 h3 hy =>
    have hn := keywordL_lone (s := y ++ q) h1 h2 h3
    change RefusedAt _ ('#' :: c :: (y ++ q)) q
    refine ⟨stringP_hash h1 h2, (by rintro r ⟨⟩), c :: (y ++ q), fun l => ?_, badval_any (z := c :: y) (by simp) hy hq⟩
    unfold valueBodyD D.alt
    rw [D.bind_run_cut (e := ⟨none, some "keyword", some keywordHelp⟩) (g := none) (r := c :: (y ++ q)) (l' := l)]
    unfold D.lift
    rw [hn]

/-! ### Reserved words -/

omit [FloatIO] in
theorem Spec.Refused.starts {x : Str} (h : Refused x) : Starts x := by
  have h := h.1
  simp only [Spec.reserved, List.mem_cons, List.not_mem_nil, or_false] at h
  rcases h with rfl | rfl | rfl | rfl | rfl | rfl <;> exact ident_starts (by decide) _

omit [FloatIO] in
theorem Spec.Refused.ne {x : Str} (h : Refused x) : x ≠ [] := by
  obtain ⟨c, q, rfl, _⟩ := h.starts
  simp

omit [FloatIO] in
theorem stringD_reserved {x q : Str} (h : Refused x) (hq : Ends q) (l : List Rec) :
    stringD (x ++ q) l = .ok none q (l ++ [(wordErr "identifier string" none, ⟨x ++ q, q⟩)]) := by
  have h1 := identStringL_reserved h.1 h.2 hq.stop
  have hb := badval_run (z := x) h.ne (reserved_ident h.1) hq
  unfold stringD D.alt
  have : D.resume identSiteD badval (x ++ q) l = .ok none q (l ++ [(wordErr "identifier string" none, ⟨x ++ q, q⟩)]) := by
    unfold D.resume identSiteD D.ctx D.lift
    rw [L.bind_run_cut h1]
    simp only [hb]
    rfl
  rw [this]

omit [FloatIO] in
theorem Spec.Refused.head {x : Str} (h : Refused x) (d : Char) (hd : d ∈ ['#', '(', '"']) (q r : Str) : x ++ q ≠ d :: r := by
  obtain ⟨c, w, rfl, hc⟩ : ∃ c w, x = c :: w ∧ IdentChar c := by
    have h := h.1
    simp only [Spec.reserved, List.mem_cons, List.not_mem_nil, or_false] at h
    rcases h with rfl | rfl | rfl | rfl | rfl | rfl <;> exact ⟨_, _, rfl, by decide⟩
  rintro ⟨⟩
  simp only [List.mem_cons, List.not_mem_nil, or_false] at hd
  rcases hd with rfl | rfl | rfl <;> revert hc <;> decide

theorem number_reserved {x : Str} (h : Refused x) (q : Str) : number (x ++ q) = .back := by
  have h := h
  obtain ⟨h, hx⟩ := h
  simp only [Spec.reserved, List.mem_cons, List.not_mem_nil, or_false] at h
  rcases h with rfl | rfl | rfl | rfl | rfl | rfl <;> first
    | exact absurd rfl hx
    | exact number_back (b := true) rfl (by rintro _ _ ⟨⟩; decide)

/-! ### Mistaken strings -/

omit [FloatIO] in
/-- A quoted string that fails. -/
theorem stringD_quoted {s q z : Str} {e : PErr} (h1 : (do let v ← quotedStringL; valueTerminatorCheckL; return v) ('"' :: s) = .cut e z)
    (h2 : quotedStringBadval z = .ok () q) (l : List Rec) :
    stringD ('"' :: s) l = .ok none q (l ++ [(PErr.within { label := some "quoted string" } e, ⟨'"' :: s, q⟩)]) := by
  obtain ⟨e1, r1, hi⟩ := D.lift_run_back (.bind .identifierString fun _ => .bind .valueTerminatorCheck fun _ => .pure _)
    (bind_back (f := fun s => do valueTerminatorCheck; return s) (identString_quote s)) l
  obtain ⟨e2, r2, hr⟩ := D.lift_run_back LTr.rawOpen
    (show rawOpen ('"' :: s) = .back from bind_back (takeP_back (rep1_back (lit_cons_ne (by decide))))) l
  unfold stringD D.alt D.resume identSiteD rawSiteD quotedSiteD D.ctx
  rw [hi]
  simp only
  unfold rawStringD
  rw [D.bind_run_back (show (D.here >>= _) ('"' :: s) l = _ from D.here_run.trans (D.bind_run_back hr))]
  simp only
  unfold D.lift
  rw [h1]
  simp only [alt_left h2]
  rfl

omit [FloatIO] in
/-- The body of a single-line string that fails. -/
theorem quotedL_body {t v z r : Str} {e : PErr} (h : Quoted t v) (hz : ∀ q, z ≠ '"' :: q) (hb : slBodyL (t ++ z) = .cut e r) :
    (do let v ← quotedStringL; valueTerminatorCheckL; return v) ('"' :: (t ++ z)) = .cut e r := by
  refine L.bind_run_cut ?_
  have ht : lit tripleQuote ('"' :: (t ++ z)) = .back := by
    unfold tripleQuote
    rw [lit_back]
    rintro q e
    simp only [List.cons_append, List.nil_append, List.cons.injEq, true_and] at e
    cases h with
    | nil => exact hz _ e
    | plain h1 h2 h3 h4 h => exact h2 (List.cons.inj e).1
    | escape => exact absurd (List.cons.inj e).1 (by decide)
    | unicode => exact absurd (List.cons.inj e).1 (by decide)
    | space => exact absurd (List.cons.inj e).1 (by decide)
  unfold quotedStringL
  rw [L.bind_run (a := false) (r := t ++ z)]
  · exact L.bind_run_cut hb
  · rw [L.alt_right (L.bind_run_back (L.lit_back ht)), L.bind_run (show L.lit ['"'] ('"' :: (t ++ z)) = .ok () (t ++ z) from rfl)]
    rfl

/-- The error recorded for a mistake of the text `S`. -/
def _root_.Kdl.Spec.Fault.mark (S : Str) (f : Fault) : Rec :=
  (⟨f.message, some f.what, f.help⟩, ⟨S.drop f.before.length, S.drop (f.before.length + f.word.length)⟩)

omit [FloatIO] in
theorem mark_shift (p S : Str) (fs : List Fault) : (fs.map (Fault.shift p)).map (Fault.mark (p ++ S)) = fs.map (Fault.mark S) := by
  rw [List.map_map]
  refine List.map_congr_left fun f _ => ?_
  have hd : ∀ n, (p ++ S).drop (p.length + n) = S.drop n := fun n => by rw [← List.drop_drop, List.drop_left]
  simp only [Function.comp, Fault.mark, Fault.shift, List.length_append, Nat.add_assoc, hd]

omit [FloatIO] in
theorem mark_here (w x T : Str) (what : String) (help msg : Option String) :
    Fault.mark (w ++ (x ++ T)) ⟨w, x, what, help, msg⟩ = (⟨msg, some what, help⟩, ⟨x ++ T, T⟩) := by
  unfold Fault.mark
  simp only
  rw [List.drop_left, ← List.append_assoc, ← List.length_append, List.drop_left]

omit [FloatIO] in
theorem mark_whole (x T : Str) (what : String) (help msg : Option String) :
    Fault.mark (x ++ T) ⟨[], x, what, help, msg⟩ = (⟨msg, some what, help⟩, ⟨x ++ T, T⟩) :=
  mark_here [] x T _ _ _

omit [FloatIO] in
theorem mark_reserved (x T : Str) : Fault.mark (x ++ T) (reservedFault x) = (wordErr "identifier string" none, ⟨x ++ T, T⟩) :=
  mark_here [] x T _ _ _

omit [FloatIO] in
theorem mark_name (x T : Str) : Fault.mark (x ++ T) (nameFault x) = (nameCx, ⟨x ++ T, T⟩) :=
  mark_here [] x T _ _ _

omit [FloatIO] in
theorem Spec.BadString.head {f : Fault} {x s : Str} (h : BadString s f x) (q r : Str) : x ++ q ≠ '(' :: r := by
  cases h with
  | reserved h => exact h.head '(' (by simp) q r
  | escape => rintro ⟨⟩
  | long => rintro ⟨⟩
  | openEnd => rintro ⟨⟩
  | openLine => rintro ⟨⟩
  | triple => rintro ⟨⟩
  | rawLong => rintro ⟨⟩
  | multiLong => rintro ⟨⟩
  | rawMultiLong => rintro ⟨⟩

omit [FloatIO] in
theorem Spec.BadString.starts {f : Fault} {x s : Str} (h : BadString s f x) : Starts x := by
  cases h with
  | reserved h => exact h.starts
  | rawLong => exact ⟨'#', _, rfl, Or.inr (Or.inl rfl)⟩
  | rawMultiLong => exact ⟨'#', _, rfl, Or.inr (Or.inl rfl)⟩
  | _ => exact ⟨_, _, rfl, Or.inr (Or.inr (Or.inl rfl))⟩

omit [FloatIO] in
theorem Spec.BadString.here {f : Fault} {x s : Str} (h : BadString s f x) : f.before = [] ∧ f.word = x := by
  cases h <;> exact ⟨rfl, rfl⟩

omit [FloatIO] in
/-- No line break. -/
theorem newlineL_none {s : Str} (h : ∀ c q, s = c :: q → ¬ Newline c) : newlineL s = .back ⟨none, some "newline", none⟩ s := by
  have hb : ∀ (d : Char) (t : Str), Newline d → L.lit (d :: t) s = .back {} s := fun d t hd =>
    L.lit_back (lit_back.mpr fun r e => h _ _ e hd)
  unfold newlineL L.ctx
  rw [L.alt_right (hb _ _ (by decide)), L.alt_right (hb _ _ (by decide)), L.alt_right (hb _ _ (by decide)),
    L.alt_right (hb _ _ (by decide)), L.alt_right (hb _ _ (by decide)), L.alt_right (hb _ _ (by decide)),
    L.alt_right (hb _ _ (by decide)), hb _ _ (by decide)]
  rfl

omit [FloatIO] in
/-- The opening of a raw string is no keyword. -/
theorem keyword_hashes (n : Nat) (z : Str) : keyword (hashes (n + 1) ++ '"' :: z) = .back := by
  have hash : ∀ {c : Char} {q : Str}, (c = '"' ∨ c = '#') → keyword ('#' :: c :: q) = .back := by
    rintro c q (rfl | rfl) <;> rfl
  cases n with
  | zero => exact hash (Or.inl rfl)
  | succ n => exact hash (Or.inr rfl)

omit [FloatIO] in
theorem Spec.NoClose.front {y r : Str} (hy : ∀ x ∈ y, IdentChar x) (h : NoClose r) : NoClose (y ++ r) := by
  induction y with
  | nil => exact h
  | cons c y ih =>
    have ih := ih fun x hx => hy x (List.mem_cons_of_mem _ hx)
    have hc := hy c (List.mem_cons_self ..)
    rintro a d b e ha hd
    cases a with
    | nil =>
      obtain ⟨rfl, rfl⟩ := List.cons.inj e
      rcases hd with rfl | rfl <;> exact absurd hc (by decide)
    | cons x a =>
      exact ih a d b (List.cons.inj e).2 (fun z hz => ha z (List.mem_cons_of_mem _ hz)) hd

omit [FloatIO] in
/-- No end of a mistaken raw string is found. -/
theorem rawBadval_back {s : Str} (h : NoClose s) : rawStringBadval s = .back := by
  refine void_back ?_
  induction s with
  | nil => rfl
  | cons c s ih =>
    rw [repTill_unfold]
    by_cases hc : c = '#' ∨ c = '"'
    · obtain ⟨x, z, rfl, h1, h2⟩ := h [] c s rfl (by simp) hc
      have hm : (lit ['#'] <+> lit ['"']) (c :: x :: z) = .ok () (x :: z) := by
        rcases hc with rfl | rfl
        · exact alt_left (lit_one _ _)
        · rw [alt_right (lit_cons_ne (by decide))]
          exact lit_one _ _
      have hw : (ws <+> newline <+> eof) (x :: z) = .back := by
        rw [alt_right (ws_back_of ?_ ?_), alt_right (newline_back ?_)]
        · exact eof_back.mpr (by simp)
        · rintro _ _ ⟨⟩ hn
          exact h1 (Or.inr hn)
        · rintro _ _ ⟨⟩
          cases hh : isUnicodeSpace x
          · rfl
          · exact absurd (Or.inl (isUnicodeSpace_iff.mp hh)) h1
        · rintro q ⟨⟩
          exact h2 rfl
      have ht : (do lit ['#'] <+> lit ['"']; peek (ws <+> newline <+> eof) : P Unit) (c :: x :: z) = .back := by
        rw [bind_eq hm]
        unfold peek
        rw [hw]
      have hi : (do notP (lit ['#'] <+> lit ['"']); anyChar : P Char) (c :: x :: z) = .back := by
        refine bind_back ?_
        unfold notP
        rw [hm]
      rw [ht, hi]
    · rw [not_or] at hc
      have hm : (lit ['#'] <+> lit ['"']) (c :: s) = .back := by
        rw [alt_right (lit_cons_ne (Ne.symm hc.1))]
        exact lit_cons_ne (Ne.symm hc.2)
      have ht : (do lit ['#'] <+> lit ['"']; peek (ws <+> newline <+> eof) : P Unit) (c :: s) = .back := bind_back hm
      have hi : (do notP (lit ['#'] <+> lit ['"']); anyChar : P Char) (c :: s) = .ok c s := by
        rw [bind_eq (notP_eq hm)]
        rfl
      rw [ht, hi]
      simp only [List.length_cons, Nat.lt_succ_self, if_true]
      rw [ih fun a d b e ha hd => h (c :: a) d b (by rw [e]; rfl) (by simpa [hc] using ha) hd]

omit [FloatIO] in
/-- A raw string with more text right behind it. -/
theorem stringD_raw {S v y q : Str} {c : Char} (h1 : rawString S = .ok v (c :: (y ++ q))) (h2 : identifierString S = .back)
    (hv : v ≠ ['"']) (hc : IdentChar c) (hy : ∀ x ∈ y, IdentChar x) (hr : NoClose q) (hq : Ends q) (l : List Rec) :
    stringD S l = .ok none q (l ++ [(wordErr "raw string" (some longHelp), ⟨S, q⟩)]) := by
  have h3 : rawOpen S = .ok v (c :: (y ++ q)) := by
    rw [rawString_eq] at h1
    obtain ⟨b, r', h4, h5⟩ := bind_ok.mp h1
    split at h5
    · cases h5
    · cases h5
      exact h4
  obtain ⟨e1, r1, hi⟩ := D.lift_run_back (.bind .identifierString fun _ => .bind .valueTerminatorCheck fun _ => .pure _)
    (bind_back (f := fun s => do valueTerminatorCheck; return s) h2) l
  have hraw : rawStringD S l = .ok v (c :: (y ++ q)) l := by
    unfold rawStringD
    rw [D.here_run, D.bind_run (D.lift_run LTr.rawOpen h3 l), if_neg hv]
    rfl
  have hb : (rawStringBadval <+> badval) (c :: (y ++ q)) = .ok () q := by
    have := hr.front (y := c :: y) (by simpa [hc] using hy)
    rw [alt_right (rawBadval_back (s := c :: (y ++ q)) this)]
    exact badval_run (z := c :: y) (by simp) (by simpa [hc] using hy) hq
  unfold stringD D.alt D.resume identSiteD rawSiteD D.ctx
  rw [hi]
  simp only
  rw [D.bind_run hraw, D.bind_run_cut (e := ⟨none, none, some longHelp⟩) (g := none) (r := c :: (y ++ q)) (l' := l)]
  · simp only [hb]
    rfl
  · unfold D.lift
    rw [checkL_ident hc]

omit [FloatIO] in
theorem stringD_bad {f : Fault} {x q : Str} (h : BadString q f x) (hq : Ends q) (l : List Rec) :
    stringD (x ++ q) l = .ok none q (l ++ [f.mark (x ++ q)]) := by
  cases h with
  | reserved h => rw [stringD_reserved h hq l, mark_reserved]
  | @escape t v y c ht hc he hy =>
    rw [mark_whole]
    have e : '"' :: (t ++ '\\' :: c :: (y ++ ['"'])) ++ q = '"' :: (t ++ '\\' :: c :: (y ++ '"' :: q)) := by simp
    rw [e]
    have hi := slItemL_escape (q := y ++ '"' :: q) hc he (by
      cases hy with
      | nil => rintro r ⟨⟩
      | char h _ =>
        rintro r ⟨⟩
        revert h
        decide
      | escape => rintro r ⟨⟩)
    have hb := slBodyL_until ht (fun _ _ _ _ _ => by rintro _ _ ⟨⟩; decide) (by rintro q ⟨⟩) (Or.inl hi)
    exact stringD_quoted (quotedL_body ht (by rintro q ⟨⟩) hb) (quotedBadval_run (.escape hc hy) hq).2.1 l
  | @long t v y c ht hc hy =>
    rw [mark_whole]
    have e : '"' :: (t ++ '"' :: c :: y) ++ q = '"' :: (t ++ '"' :: (c :: (y ++ q))) := by simp
    rw [e]
    have hb := LTr.quotedString.ok (quotedString_eq (r := c :: (y ++ q)) ht (by
      rintro r ⟨⟩
      revert hc
      decide))
    exact stringD_quoted (z := c :: (y ++ q)) (e := ⟨none, none, some longHelp⟩)
      (by rw [L.bind_run hb]; exact L.bind_run_cut (checkL_ident hc _)) (quotedBadval_run (.char hc hy) hq).1 l
  | @openEnd t v ht hr =>
    subst hr
    rw [mark_whole]
    have hb := slBodyL_until ht (z := []) (fun _ _ _ _ _ => by rintro _ _ ⟨⟩) (by rintro q ⟨⟩) (Or.inl (show slItemL [] = .back {} [] from rfl))
    exact stringD_quoted (quotedL_body ht (by rintro q ⟨⟩) hb) (quotedBadval_run .nil hq).1 l
  | @openLine t v q' c ht hs hc hr =>
    subst hr
    rw [mark_whole]
    have hn : slItemL (c :: q') = .cut ⟨some openMessage, none, some openHelp⟩ (c :: q') := by
      obtain ⟨r, hr⟩ := newline_ok_of (q := q') hc
      have hr := LTr.newline.ok hr
      unfold slItemL
      refine L.bind_run_cut ?_
      unfold L.cutErr L.ctx L.notP
      rw [hr]
      rfl
    have hq' : ∀ r, c :: q' ≠ '"' :: r := by
      rintro r ⟨⟩
      revert hc
      decide
    have hb := slBodyL_until ht (fun a w h1 h2 h3 => by
      obtain ⟨x, hx, hn⟩ := hs a w h1 h2
      exact absurd (h3 x hx) hn) hq' (Or.inr hn)
    exact stringD_quoted (quotedL_body ht hq' hb) (quotedBadval_run .nil hq).1 l
  | @triple y z hy hz hn =>
    rw [mark_whole]
    have e : '"' :: '"' :: '"' :: (y ++ z) ++ q = '"' :: ('"' :: '"' :: (y ++ (z ++ q))) := by simp
    rw [e]
    have hb : quotedStringBadval (y ++ (z ++ q)) = .ok () q := by
      rcases hz with rfl | rfl
      · exact (quotedBadval_run hy hq).1
      · exact (quotedBadval_run hy hq).2.2
    refine stringD_quoted (e := ⟨some tripleMessage, some "multi-line string newline", none⟩) (L.bind_run_cut ?_) hb l
    unfold quotedStringL
    refine L.bind_run_cut ?_
    have hl : L.lit tripleQuote ('"' :: ('"' :: '"' :: (y ++ (z ++ q)))) = .ok () (y ++ (z ++ q)) := rfl
    refine L.alt_cut ?_
    rw [L.bind_run hl]
    refine L.bind_run_cut ?_
    unfold L.ctx L.cutErr
    rw [newlineL_none hn]
    rfl
  | @rawLong n t y c ht hc hy hr =>
    rw [mark_whole]
    have e : hashes (n + 1) ++ '"' :: (t ++ '"' :: (hashes (n + 1) ++ c :: y)) ++ q =
        hashes (n + 1) ++ '"' :: (t ++ '"' :: (hashes (n + 1) ++ c :: (y ++ q))) := by simp
    rw [e]
    exact stringD_raw (rawString_single ht) (identString_hash _) ht.2.2 hc hy hr hq l
  | @multiLong nl pre t y ls c h0 h1 h hc hy =>
    rw [mark_whole]
    have e : '"' :: '"' :: '"' :: (nl ++ (t ++ '"' :: '"' :: '"' :: c :: y)) ++ q =
        '"' :: ('"' :: '"' :: (nl ++ (t ++ '"' :: '"' :: '"' :: c :: (y ++ q)))) := by simp
    rw [e]
    have hb := LTr.quotedString.ok (quotedString_multi (r := c :: (y ++ q)) h0 h1 h)
    exact stringD_quoted (z := c :: (y ++ q)) (e := ⟨none, none, some longHelp⟩)
      (by refine (L.bind_run hb).trans ?_; exact L.bind_run_cut (checkL_ident hc _)) (quotedBadval_run (.char hc hy) hq).1 l
  | @rawMultiLong n nl pre t y ls c h0 h1 h h2 hc hy hr =>
    rw [mark_whole]
    have e : hashes (n + 1) ++ '"' :: '"' :: '"' :: (nl ++ (t ++ '"' :: '"' :: '"' :: (hashes (n + 1) ++ c :: y))) ++ q =
        hashes (n + 1) ++ (tripleQuote ++ (nl ++ (t ++ (tripleQuote ++ (hashes (n + 1) ++ c :: (y ++ q)))))) := by simp [tripleQuote]
    rw [e]
    exact stringD_raw ((rawString_multi h0 h1 h).trans (if_neg h2)) (identString_hash _) h2 hc hy hr hq l

omit [FloatIO] in
theorem identifierD_bad {f : Fault} {x q : Str} (h : BadString q f x) (hq : Ends q) (l : List Rec) :
    ∃ i, identifierD total (x ++ q) l = .ok i q (l ++ [f.mark (x ++ q)]) ∧ i.repr = some [] := by
  unfold identifierD
  rw [D.here_run, D.bind_run (stringD_bad h hq l), D.here_run]
  exact ⟨_, rfl, rfl⟩

theorem valueBodyD_bad {f : Fault} {x q : Str} (h : BadString q f x) (hq : Ends q) (l : List Rec) :
    valueBodyD (x ++ q) l = .ok none q (l ++ [f.mark (x ++ q)]) := by
  have hkw : keyword (x ++ q) = .back := by
    cases h with
    | reserved h => exact keyword_back fun r => h.head '#' (by simp) q r
    | rawLong => rw [List.append_assoc]; exact keyword_hashes _ _
    | rawMultiLong => rw [List.append_assoc]; exact keyword_hashes _ _
    | _ => exact keyword_back (by rintro r ⟨⟩)
  obtain ⟨e1, r1, hk⟩ := D.lift_run_back LTr.keyword hkw l
  have hn : number (x ++ q) = .back := by
    cases h with
    | reserved h => exact number_reserved h q
    | _ => exact number_back (b := true) rfl (by rintro _ _ ⟨⟩; decide)
  obtain ⟨e2, r2, hn⟩ := D.lift_run_back LTr.number hn l
  unfold valueBodyD D.alt
  rw [D.bind_run_back hk]
  simp only
  rw [D.bind_run_back hn]
  simp only
  rw [D.bind_run (stringD_bad h hq l)]
  rfl

/-! ### Words that are no strings -/

omit [FloatIO] in
/-- A name that is no string. -/
theorem stringD_none {s : Str} (h1 : identifierString s = .back) (h2 : rawOpen s = .back) (h3 : ∀ q, s ≠ '"' :: q) (l : List Rec) :
    stringD s l = .back (wordErr "quoted string" none) s l := by
  obtain ⟨e1, r1, hi⟩ := D.lift_run_back (.bind .identifierString fun _ => .bind .valueTerminatorCheck fun _ => .pure _)
    (bind_back (f := fun s => do valueTerminatorCheck; return s) h1) l
  obtain ⟨e2, r2, hr⟩ := D.lift_run_back LTr.rawOpen h2 l
  have hq : quotedStringL s = .back {} s := by
    unfold quotedStringL
    refine L.bind_run_back ?_
    rw [L.alt_right (L.bind_run_back (L.lit_back (lit_back.mpr fun r e => h3 _ e)))]
    exact L.bind_run_back (L.lit_back (lit_back.mpr h3))
  unfold stringD D.alt D.resume identSiteD rawSiteD quotedSiteD D.ctx
  rw [hi]
  simp only
  unfold rawStringD
  rw [D.bind_run_back (show (D.here >>= _) s l = _ from D.here_run.trans (D.bind_run_back hr))]
  simp only
  unfold D.lift
  rw [L.bind_run_back hq]
  rfl

omit [FloatIO] in
theorem stringD_back {s : Str} (h1 : identifierString s = .back) (h2 : rawOpen s = .back) (h3 : ∀ q, s ≠ '"' :: q) (l : List Rec) :
    ∃ e, stringD s l = .back e s l ∧ e.help = none :=
  ⟨_, stringD_none h1 h2 h3 l, rfl⟩

omit [FloatIO] in
theorem numberWord_head {x : Str} (hx : ∀ c ∈ x, IdentChar c) (h : NumberLike x) :
    ∃ c y, x = c :: y ∧ IdentChar c ∧ c ≠ '#' ∧ c ≠ '"' ∧ c ≠ '(' := by
  cases x with
  | nil =>
    obtain ⟨sg, k, pt, d, t, _, _, _, e⟩ := h
    simp at e
  | cons c y =>
    have hc := hx c (List.mem_cons_self ..)
    refine ⟨c, y, rfl, hc, ?_, ?_, ?_⟩ <;> rintro rfl <;> revert hc <;> decide

omit [FloatIO] in
theorem numberWord_back {x : Str} (hx : ∀ c ∈ x, IdentChar c) (h : NumberLike x) (Y : Str) :
    identifierString (x ++ Y) = .back ∧ rawOpen (x ++ Y) = .back ∧ ∀ q, x ++ Y ≠ '"' :: q := by
  obtain ⟨c, y, rfl, h1, h2, h3, _⟩ := numberWord_head hx h
  refine ⟨identString_num ?_, bind_back (takeP_back (rep1_back (lit_cons_ne (Ne.symm h2)))), ?_⟩
  · obtain ⟨sg, k, pt, d, t, hs, hp, hd, e⟩ := h
    exact ⟨sg, k, pt, d, t ++ Y, hs, hp, hd, by rw [e]; simp⟩
  · rintro q ⟨⟩
    exact h3 rfl

omit [FloatIO] in
theorem hashWord_back {y : Str} (hne : y ≠ []) (hy : ∀ c ∈ y, IdentChar c) (Y : Str) :
    identifierString ('#' :: y ++ Y) = .back ∧ rawOpen ('#' :: y ++ Y) = .back ∧ ∀ q, '#' :: y ++ Y ≠ '"' :: q := by
  refine ⟨identString_hash _, ?_, by rintro q ⟨⟩⟩
  cases y with
  | nil => exact absurd rfl hne
  | cons c y =>
    have hc := hy c (List.mem_cons_self ..)
    have h1 : '#' ≠ c := by rintro rfl; revert hc; decide
    have h2 : '"' ≠ c := by rintro rfl; revert hc; decide
    have : takeP (rep1 (lit ['#'])) ('#' :: c :: (y ++ Y)) = .ok ['#'] (c :: (y ++ Y)) :=
      takeP_eq (t := ['#']) (r := c :: (y ++ Y)) (rep1_eq (lit_one _ _) (rep0_nil (lit_cons_ne h1)))
    unfold rawOpen
    rw [List.cons_append, List.cons_append, bind_eq this]
    apply bind_back
    rw [alt_right (bind_back (show lit tripleQuote (c :: (y ++ Y)) = .back from lit_cons_ne h2))]
    exact bind_back (lit_cons_ne h2)

/-! ### Type annotations -/

omit [FloatIO] in
theorem badvalTyChar_back {s : Str} (h : Starts s) : badvalTyChar s = .back := by
  have hs := h.solid
  obtain ⟨c, q, rfl, hc⟩ := h
  have f := hc.facts
  unfold badvalTyChar
  rw [alt_right (lit_cons_ne (Ne.symm f.2.2.2.2.2.2.2)), alt_right (lit_cons_ne (Ne.symm f.2.2.2.1)), alt_right hs.nodeSpace]
  unfold nodeTerminator
  rw [alt_right (lit_cons_ne (Ne.symm f.2.2.2.2.2.2.1)), alt_right (newline_back (by
    rintro _ _ ⟨⟩ hn
    exact f.1 (Or.inr hn)))]
  unfold singleLineComment
  exact bind_back (lit_cons_ne (Ne.symm f.2.1))

omit [FloatIO] in
theorem tyEnd_ok {a : Str} (ha : Sp a) (r : Str) : ∃ q, (nodeSpace <+> lit [')']) (a ++ ')' :: r) = .ok () q := by
  have h1 := solid_lit (c := ')') (by simp) r
  by_cases hn : a = []
  · subst hn
    rw [List.nil_append, alt_right h1.nodeSpace]
    exact ⟨_, lit_one _ _⟩
  · obtain ⟨q, hq, _⟩ := (ha _ h1).space1 hn
    exact ⟨q, alt_left hq⟩

omit [FloatIO] in
theorem badvalTyChar_end {a : Str} (ha : Sp a) (r : Str) : ∃ q, badvalTyChar (a ++ ')' :: r) = .ok () q := by
  have h1 := solid_lit (c := ')') (by simp) r
  have lt : ∀ t s, (∃ q, lit t s = .ok () q) ∨ lit t s = .back := by
    intro t s
    unfold lit
    cases stripPrefix? t s with
    | none => exact Or.inr rfl
    | some q => exact Or.inl ⟨q, rfl⟩
  unfold badvalTyChar
  by_cases hn : a = []
  · subst hn
    exact ⟨_, alt_left (lit_one _ _)⟩
  · obtain ⟨q, hq, _⟩ := (ha _ h1).space1 hn
    rcases lt [')'] (a ++ ')' :: r) with ⟨u, hu⟩ | hu
    · exact ⟨u, alt_left hu⟩
    · rw [alt_right hu]
      rcases lt ['{'] (a ++ ')' :: r) with ⟨u, hu⟩ | hu
      · exact ⟨u, alt_left hu⟩
      · rw [alt_right hu]
        exact ⟨q, alt_left hq⟩

omit [FloatIO] in
/-- The parser goes on behind the word. -/
theorem badvalTy_run {z a r : Str} (hne : z ≠ []) (hz : ∀ c ∈ z, Start c) (ha : Sp a) : badvalTy (z ++ (a ++ ')' :: r)) = .ok () (a ++ ')' :: r) := by
  have one : ∀ c q, Start c → (do notP badvalTyChar; anyChar : P Char) (c :: q) = .ok c q := by
    intro c q hc
    rw [bind_eq (notP_eq (badvalTyChar_back ⟨c, q, rfl, hc⟩))]
    rfl
  obtain ⟨u, hu⟩ := badvalTyChar_end ha r
  cases z with
  | nil => exact absurd rfl hne
  | cons c z =>
    unfold badvalTy
    rw [List.cons_append, bind_eq (one c _ (hz c (List.mem_cons_self ..)))]
    have key : ∀ z : Str, (∀ c ∈ z, Start c) →
        RepTill (do notP badvalTyChar; anyChar) (peek badvalTyChar) (z ++ (a ++ ')' :: r)) z () (a ++ ')' :: r) := by
      intro z
      induction z with
      | nil =>
        intro _
        exact .nil (peek_eq hu)
      | cons c z ih =>
        intro hz
        refine .cons ?_ (one c _ (hz c (List.mem_cons_self ..))) (by simp) (ih fun x hx => hz x (List.mem_cons_of_mem _ hx))
        unfold peek
        rw [List.cons_append, badvalTyChar_back ⟨c, _, rfl, hz c (List.mem_cons_self ..)⟩]
    exact void_eq (repTill_of (key z fun x hx => hz x (List.mem_cons_of_mem _ hx)))

theorem Spec.FaultyType.starts {ts : List Fault} {it r : Str} (h : FaultyType r ts it) : Starts it := by
  cases h with
  | ok h => exact (StrTok.text h).starts
  | string h => exact h.starts
  | number hx h =>
    obtain ⟨c, y, rfl, h1, _⟩ := numberWord_head hx h
    exact ident_starts h1 _
  | keyword => exact ⟨_, _, rfl, Or.inr (Or.inl rfl)⟩

theorem Spec.FaultyTy.starts {ts : List Fault} {tt r s : Str} (h : FaultyTy r ts tt) (hs : Starts s) : Starts (tt ++ s) := by
  cases h with
  | none => exact hs
  | some => exact ⟨_, _, rfl, by simp [Start]⟩

/-- A type annotation that may be mistaken. -/
theorem tyD_run {ts : List Fault} {it b a r : Str} (h : FaultyType (a ++ ')' :: r) ts it) (hb : Sp b) (ha : Sp a) (l : List Rec) :
    ∃ x, tyD total ('(' :: (b ++ (it ++ (a ++ ')' :: r)))) l = .ok x r (l ++ ts.map (Fault.mark (it ++ (a ++ ')' :: r)))) := by
  have hst := h.starts
  have h1 := solid_lit (c := ')') (by simp) r
  have h2 := ends_lit (c := ')') (by simp) r
  have he : Ends (a ++ ')' :: r) := (ha _ h1).ends fun _ => h2
  obtain ⟨q, hq⟩ := tyEnd_ok ha r
  have hpk := fun l => D.lift_run (.peek (.alt .nodeSpace (.lit [')']))) (peek_eq hq) l
  have good : ∀ {i : Ident} {l'}, identifierD total (it ++ (a ++ ')' :: r)) l = .ok i (a ++ ')' :: r) l' →
      ∃ o, D.resume (tyBodyD total) badvalTy (it ++ (a ++ ')' :: r)) l = .ok o (a ++ ')' :: r) l' := by
    intro i l' hi
    refine ⟨some i, D.resume_run ?_⟩
    unfold tyBodyD D.cutErr D.ctx
    rw [D.bind_run hi, D.bind_run (hpk _)]
    rfl
  have bad : ∀ {x : Str}, x = it → (∀ c ∈ x, Start c) → identifierString (x ++ (a ++ ')' :: r)) = .back →
      rawOpen (x ++ (a ++ ')' :: r)) = .back → (∀ q, x ++ (a ++ ')' :: r) ≠ '"' :: q) →
      ∃ o, D.resume (tyBodyD total) badvalTy (it ++ (a ++ ')' :: r)) l =
        .ok o (a ++ ')' :: r) (l ++ [typeFault x].map (Fault.mark (x ++ (a ++ ')' :: r)))) := by
    rintro x rfl hx g1 g2 g3
    have hne : x ≠ [] := by
      obtain ⟨c, q, rfl, _⟩ := hst
      simp
    obtain ⟨e, h4, h6⟩ := stringD_back g1 g2 g3 l
    have h5 : identifierD total (x ++ (a ++ ')' :: r)) l = .back e (x ++ (a ++ ')' :: r)) l := by
      unfold identifierD
      rw [D.here_run]
      exact D.bind_run_back h4
    refine ⟨none, ?_⟩
    unfold D.resume tyBodyD D.cutErr D.ctx
    rw [D.bind_run_back h5]
    simp only [badvalTy_run hne hx ha, List.map_cons, List.map_nil, typeFault, mark_whole, PErr.within, h6]
    rfl
  have key : ∃ o, D.resume (tyBodyD total) badvalTy (it ++ (a ++ ')' :: r)) l =
      .ok o (a ++ ')' :: r) (l ++ ts.map (Fault.mark (it ++ (a ++ ')' :: r)))) := by
    cases h with
    | ok h =>
      rw [List.map_nil, List.append_nil]
      exact good (DTr.run (.identifierD total id) (Sim.identifierR _ total) (identifier_eq (total := total) (StrTok.text h _ he)) l)
    | string h =>
      obtain ⟨i, h1, _⟩ := identifierD_bad total h he l
      exact good h1
    | number hx h =>
      obtain ⟨g1, g2, g3⟩ := numberWord_back hx h (a ++ ')' :: r)
      exact bad rfl (fun c hc => Or.inl (hx c hc)) g1 g2 g3
    | keyword hne hy =>
      obtain ⟨g1, g2, g3⟩ := hashWord_back hne hy (a ++ ')' :: r)
      refine bad rfl (fun c hc => ?_) g1 g2 g3
      rcases List.mem_cons.mp hc with rfl | hc
      · exact Or.inr (Or.inl rfl)
      · exact Or.inl (hy c hc)
  obtain ⟨o, ho⟩ := key
  unfold tyD
  rw [D.bind_run (D.lift_run (.lit ['(']) (lit_one _ _) l), D.bind_run (D.lift_run (.takeP .nodeSpace0) (hb.take (hst.append _).solid) l),
    D.bind_run ho, D.bind_run (D.lift_run (.takeP .nodeSpace0) (ha.take h1) _), D.bind_run (D.lift_run (.lit [')']) (lit_one _ _) _)]
  exact ⟨_, rfl⟩

/-- A type annotation, if there is one, and the space behind it. -/
theorem faultyTy_run {ts : List Fault} {tt s : Str} (h : FaultyTy s ts tt) (hs : Starts s) (hp : ∀ r, s ≠ '(' :: r) (l : List Rec) :
    ∃ o q af, D.opt (tyD total) (tt ++ s) l = .ok o q (l ++ ts.map (Fault.mark (tt ++ s))) ∧ takeP nodeSpace0 q = .ok af s := by
  have hne : s ≠ [] := by
    obtain ⟨c, q, rfl, _⟩ := hs
    simp
  cases h with
  | none =>
    obtain ⟨e2, r2, ht⟩ := DTr.run_back (.tyD total id) (Sim.tyR _ total) (tyP_back hp) l
    exact ⟨_, s, [], by rw [List.map_nil, List.append_nil]; exact D.opt_run_back ht, takeP_nil hs.solid.nodeSpace0⟩
  | @some it b a f fs hi hb ha hf =>
    have hne' : it ≠ [] := by
      obtain ⟨c, q, rfl, _⟩ := hi.starts
      simp
    obtain ⟨x, hx⟩ := tyD_run total hi (hb.sp hne') (ha.sp (by simp)) l
    have e : '(' :: (b ++ (it ++ (a ++ ')' :: f))) ++ s = ('(' :: b) ++ (it ++ (a ++ ')' :: (f ++ s))) := by simp
    rw [e, mark_shift]
    exact ⟨_, f ++ s, f, D.opt_run hx, (hf.sp hne).take hs.solid⟩

theorem annotation_run {ts : List Fault} {tt s : Str} (h : FaultyTy s ts tt) (hs : Starts s) (hp : ∀ r, s ≠ '(' :: r) (l : List Rec) :
    ∃ o, D.opt (do let t ← tyD total; let a ← .lift (.takeP nodeSpace0L); return (t, a)) (tt ++ s) l =
      .ok o s (l ++ ts.map (Fault.mark (tt ++ s))) := by
  obtain ⟨o, q, af, h1, h2⟩ := faultyTy_run total h hs hp l
  cases h with
  | none =>
    obtain ⟨e2, r2, ht⟩ := DTr.run_back (.tyD total id) (Sim.tyR _ total) (tyP_back hp) l
    exact ⟨_, by rw [List.map_nil, List.append_nil]; exact D.opt_run_back (D.bind_run_back ht)⟩
  | @some it b a f fs hi hb ha hf =>
    have hne' : it ≠ [] := by
      obtain ⟨c, q, rfl, _⟩ := hi.starts
      simp
    have hne : s ≠ [] := by
      obtain ⟨c, q, rfl, _⟩ := hs
      simp
    obtain ⟨x, hx⟩ := tyD_run total hi (hb.sp hne') (ha.sp (by simp)) l
    have e : '(' :: (b ++ (it ++ (a ++ ')' :: f))) ++ s = ('(' :: b) ++ (it ++ (a ++ ')' :: (f ++ s))) := by simp
    rw [e, mark_shift]
    exact ⟨_, D.opt_run (by
      rw [List.cons_append, D.bind_run hx, D.bind_run (D.lift_run (.takeP .nodeSpace0) ((hf.sp hne).take hs.solid) _)]; rfl)⟩

/-! ### Values and keys -/

/-- A value behind its annotation. -/
theorem valueD_run {ts : List Fault} {tt s q : Str} {v : Option Value} {l l' : List Rec} (ht : FaultyTy s ts tt) (hs : Starts s)
    (hp : ∀ r, s ≠ '(' :: r) (hv : valueBodyD s (l ++ ts.map (Fault.mark (tt ++ s))) = .ok v q l') :
    ∃ e, valueD total (tt ++ s) l = .ok e q l' := by
  obtain ⟨o, h⟩ := annotation_run total ht hs hp l
  unfold valueD
  rw [D.here_run, D.bind_run h, D.here_run, D.bind_run hv, D.here_run]
  cases o <;> exact ⟨_, rfl⟩

theorem valueD_cut {ts : List Fault} {tt s z : Str} {e : PErr} {l : List Rec} (ht : FaultyTy s ts tt) (hs : Starts s)
    (hp : ∀ r, s ≠ '(' :: r) (hv : ∀ l, valueBodyD s l = .cut e none z l) :
    valueD total (tt ++ s) l = .cut e none z (l ++ ts.map (Fault.mark (tt ++ s))) := by
  obtain ⟨o, h⟩ := annotation_run total ht hs hp l
  unfold valueD
  rw [D.here_run, D.bind_run h, D.here_run]
  exact D.bind_run_cut (hv _)

theorem Spec.FaultyKey.starts {ks : List Fault} {t r : Str} (h : FaultyKey r ks t) : Starts t := by
  cases h with
  | ok h => exact (StrTok.text h).starts
  | string h => exact h.starts

theorem Spec.FaultyValue.starts {fs : List Fault} {t r : Str} (h : FaultyValue r fs t) : Starts t := by
  cases h with
  | ok h => exact (ValTok.text h).1
  | string h => exact h.starts

theorem faultyKey_run {ks : List Fault} {kt q : Str} (h : FaultyKey q ks kt) (hq : Ends q) (l : List Rec) :
    ∃ i, identifierD total (kt ++ q) l = .ok i q (l ++ ks.map (Fault.mark (kt ++ q))) := by
  cases h with
  | ok h =>
    rw [List.map_nil, List.append_nil]
    exact ⟨_, DTr.run (.identifierD total id) (Sim.identifierR _ total) (identifier_eq (total := total) (StrTok.text h _ hq)) l⟩
  | string h =>
    obtain ⟨i, h1, _⟩ := identifierD_bad total h hq l
    exact ⟨i, h1⟩

theorem faultyValue_run {ts fs : List Fault} {tt vt q : Str} (ht : FaultyTy (vt ++ q) ts tt) (h : FaultyValue q fs vt) (hq : Ends q)
    (l : List Rec) : ∃ e, valueD total (tt ++ (vt ++ q)) l =
      .ok e q (l ++ (ts.map (Fault.mark (tt ++ (vt ++ q))) ++ fs.map (Fault.mark (vt ++ q)))) := by
  have hs := h.starts.append q
  rw [← List.append_assoc l]
  cases h with
  | ok h =>
    have hv := (ValTok.text h).2 q hq
    rw [List.map_nil, List.append_nil]
    exact valueD_run total ht hs hv.1 (DTr.run (.valueBodyD total id) (Sim.valueBodyR _) hv.2.1 _)
  | string h =>
    exact valueD_run total ht hs (fun r => h.head q r) (v := none) (valueBodyD_bad h hq _)

theorem Spec.FaultyEntry.starts {es : List Fault} {t r : Str} (h : FaultyEntry r es t) : Starts t := by
  cases h with
  | word ht h => exact ht.starts h.starts
  | arg ht hv => exact ht.starts hv.starts
  | prop hk => exact hk.starts.append _

/-- An entry that may be mistaken. -/
theorem faultyEntry_run {es : List Fault} {t q : Str} (h : FaultyEntry q es t) (hq : AfterEntry q) (l : List Rec) :
    ∃ e, entryBodyD total (t ++ q) l = .ok e q (l ++ es.map (Fault.mark (t ++ q))) := by
  cases h with
  | @word tt x what help msg ts ht h =>
    obtain ⟨h1, h2, z, h3, h4⟩ := badWord_value h hq.1
    have hi : stringP (tt ++ (x ++ q)) = .back := by
      cases ht with
      | none => exact h1
      | some => exact stringP_paren _
    obtain ⟨e1, r1, hi⟩ := DTr.run_back (.identifierD total id) (Sim.identifierR _ total) (identifier_back hi) l
    rw [List.map_append, List.map_cons, List.map_nil, mark_whole, List.append_assoc]
    unfold entryBodyD
    rw [D.bind_run (D.opt_run_back hi)]
    simp only
    refine ⟨none, D.bind_run (a := none) ?_⟩
    unfold D.resume
    rw [valueD_cut total ht (h.starts.append q) h2 h3]
    simp only [h4]
    rw [← List.append_assoc l]
    rfl
  | @arg tt vt ts fs ht hv =>
    rw [List.map_append, List.append_assoc, mark_shift]
    cases ht with
    | none =>
      cases hv with
      | ok h =>
        obtain ⟨e, h1, _⟩ := (EntTok.text (.arg (ty := none) (tt := []) .none h)).2 total q hq
        exact ⟨_, by simp only [List.map_nil, List.append_nil]; exact DTr.run (.entryBodyD total id) (Sim.entryBodyR _ total) h1 l⟩
      | string h =>
        obtain ⟨i, h1, _⟩ := identifierD_bad total h hq.1 l
        unfold entryBodyD
        rw [List.nil_append, D.bind_run (D.opt_run h1)]
        simp only
        rw [D.bind_run (noEquals_run hq _)]
        exact ⟨_, rfl⟩
    | some hi hb ha hf =>
      obtain ⟨e, h1⟩ := faultyValue_run total (.some hi hb ha hf) hv hq.1 l
      rw [List.cons_append] at h1 ⊢
      obtain ⟨e1, r1, hi⟩ := DTr.run_back (.identifierD total id) (Sim.identifierR _ total) (identifier_back (stringP_paren _)) l
      unfold entryBodyD
      rw [D.bind_run (D.opt_run_back hi)]
      simp only
      rw [D.bind_run (D.resume_run h1)]
      exact ⟨_, rfl⟩
  | @prop kt wb wa tt vt ks ts fs hk hb ha ht hv =>
    have hne : vt ≠ [] := by
      obtain ⟨c, q, rfl, _⟩ := hv.starts
      simp
    have hb := hb.sp (by simp)
    have ha := ha.sp (by simp [hne])
    have hst : Starts (tt ++ (vt ++ q)) := ht.starts (hv.starts.append q)
    have e : kt ++ (wb ++ '=' :: (wa ++ (tt ++ vt))) ++ q = kt ++ (wb ++ '=' :: (wa ++ (tt ++ (vt ++ q)))) := by simp
    have e' : kt ++ (wb ++ '=' :: (wa ++ (tt ++ (vt ++ q)))) = (kt ++ (wb ++ '=' :: (wa ++ tt))) ++ (vt ++ q) := by simp
    have e'' : kt ++ (wb ++ '=' :: (wa ++ (tt ++ (vt ++ q)))) = (kt ++ (wb ++ '=' :: wa)) ++ (tt ++ (vt ++ q)) := by simp
    have m1 : (ts.map (Fault.shift (kt ++ (wb ++ '=' :: wa)))).map (Fault.mark (kt ++ (wb ++ '=' :: (wa ++ (tt ++ (vt ++ q)))))) =
        ts.map (Fault.mark (tt ++ (vt ++ q))) := by rw [e'', mark_shift]
    have m2 : (fs.map (Fault.shift (kt ++ (wb ++ '=' :: (wa ++ tt))))).map (Fault.mark (kt ++ (wb ++ '=' :: (wa ++ (tt ++ (vt ++ q)))))) =
        fs.map (Fault.mark (vt ++ q)) := by rw [e', mark_shift]
    rw [List.map_append, List.map_append, e, m1, m2]
    have e1 := solid_lit (c := '=') (by simp) (wa ++ (tt ++ (vt ++ q)))
    have e2 := ends_lit (c := '=') (by simp) (wa ++ (tt ++ (vt ++ q)))
    have he : Ends (wb ++ '=' :: (wa ++ (tt ++ (vt ++ q)))) := (hb _ e1).ends fun _ => e2
    have e3 : equalsSign ('=' :: (wa ++ (tt ++ (vt ++ q)))) = .ok () (wa ++ (tt ++ (vt ++ q))) := lit_one _ _
    have h4 : opt (do let k ← takeP nodeSpace0; equalsSign; return k) (wb ++ '=' :: (wa ++ (tt ++ (vt ++ q)))) = .ok (some wb) (wa ++ (tt ++ (vt ++ q))) :=
      opt_some (by rw [bind_eq (hb.take e1), bind_eq e3]; rfl)
    obtain ⟨i, hi⟩ := faultyKey_run total hk he l
    obtain ⟨x, hx⟩ := faultyValue_run total ht hv hq.1 (l ++ ks.map (Fault.mark (kt ++ (wb ++ '=' :: (wa ++ (tt ++ (vt ++ q)))))))
    unfold entryBodyD
    rw [D.bind_run (D.opt_run hi)]
    simp only
    rw [D.bind_run (D.lift_run (.opt (.bind (.takeP .nodeSpace0) fun _ => .bind .equalsSign fun _ => .pure _)) h4 _)]
    simp only
    rw [D.bind_run (D.lift_run (.takeP .nodeSpace0) (ha.take hst.solid) _)]
    have hm : D.mapCut (fun s r e => some (located e s r)) (propValueD total) (tt ++ (vt ++ q))
        (l ++ ks.map (Fault.mark (kt ++ (wb ++ '=' :: (wa ++ (tt ++ (vt ++ q))))))) = .ok x q
        (l ++ ks.map (Fault.mark (kt ++ (wb ++ '=' :: (wa ++ (tt ++ (vt ++ q)))))) ++
          (ts.map (Fault.mark (tt ++ (vt ++ q))) ++ fs.map (Fault.mark (vt ++ q)))) := by
      unfold D.mapCut propValueD D.cutErr D.ctx
      rw [hx]
    rw [D.bind_run hm, List.append_assoc]
    exact ⟨_, rfl⟩

/-! ### Names of nodes -/

theorem Spec.FaultyName.starts {ns : List Fault} {nt r : Str} (h : FaultyName r ns nt) : Starts nt := by
  cases h with
  | ok h => exact (StrTok.text h).starts
  | string h => exact h.starts
  | number hx h =>
    obtain ⟨c, y, rfl, h1, _⟩ := numberWord_head hx h
    exact ident_starts h1 _
  | keyword => exact ⟨_, _, rfl, Or.inr (Or.inl rfl)⟩

theorem Spec.FaultyName.ne {ns : List Fault} {nt r : Str} (h : FaultyName r ns nt) : nt ≠ [] := by
  obtain ⟨c, q, rfl, _⟩ := h.starts
  simp

theorem Spec.FaultyName.not_paren {ns : List Fault} {nt r : Str} (h : FaultyName r ns nt) (Y q : Str) : nt ++ Y ≠ '(' :: q := by
  cases h with
  | ok h => exact (StrTok.text h).not_paren _ _
  | string h => exact h.head _ _
  | number hx h =>
    obtain ⟨c, y, rfl, _, _, _, h1⟩ := numberWord_head hx h
    rintro ⟨⟩
    exact h1 rfl
  | keyword => rintro ⟨⟩

/-- A word that is no string, as the name of a node. -/
theorem badName_run {x Y : Str} (hne : x ≠ []) (hx : ∀ c ∈ x.tail, IdentChar c) (hY : Ends Y) (h1 : identifierString (x ++ Y) = .back)
    (h2 : rawOpen (x ++ Y) = .back) (h3 : ∀ q, x ++ Y ≠ '"' :: q) (l : List Rec) :
    D.resume (nameD total) badval (x ++ Y) l = .ok none Y (l ++ [(nameFault x).mark (x ++ Y)]) := by
  obtain ⟨e, h4, _⟩ := stringD_back h1 h2 h3 l
  have h5 : identifierD total (x ++ Y) l = .back e (x ++ Y) l := by
    unfold identifierD
    rw [D.here_run]
    exact D.bind_run_back h4
  unfold D.resume nameD D.ctx D.cutErr
  rw [h5]
  simp only [badval_any hne hx hY, mark_name]
  rfl

/-- The name of a node, which may be mistaken. -/
theorem faultyName_run {ns : List Fault} {nt Y : Str} (h : FaultyName Y ns nt) (hY : Ends Y) (l : List Rec) :
    ∃ i o l1, D.resume (nameD total) badval (nt ++ Y) l = .ok i Y l1 ∧
      checkNameD (nt ++ Y) (i.getD (.ofStr badIdent)) Y l1 = .ok o Y (l ++ ns.map (Fault.mark (nt ++ Y))) := by
  have hne := h.ne
  have pass : ∀ l1 : List Rec, checkNameD (nt ++ Y) (Option.getD none (.ofStr badIdent)) Y l1 = .ok none Y l1 := fun _ => rfl
  cases h with
  | @ok _ nm h =>
    have e8 := identifier_eq (total := total) (StrTok.text h Y hY)
    refine ⟨_, none, l, D.resume_run (DTr.run (.name total id) (.cutErr (.identifierR _ total)) (cutErr_eq e8) l), ?_⟩
    unfold checkNameD
    rw [if_neg (by simpa using hne), List.map_nil, List.append_nil]
    rfl
  | @string _ f h =>
    obtain ⟨i, h1, h2⟩ := identifierD_bad total h hY l
    refine ⟨some i, none, _, D.resume_run (?_ : nameD total (nt ++ Y) l = .ok i Y (l ++ [f.mark (nt ++ Y)])), ?_⟩
    · unfold nameD D.ctx D.cutErr
      rw [h1]
    · unfold checkNameD
      rw [if_pos (by simpa using h2)]
      unfold D.resume D.ctx
      simp only [List.map_cons, List.map_nil, mark_name]
      rw [List.append_assoc]
      rfl
  | number hx h =>
    obtain ⟨g1, g2, g3⟩ := numberWord_back hx h Y
    exact ⟨none, none, _, badName_run total hne (fun c hc => hx c (List.mem_of_mem_tail hc)) hY g1 g2 g3 l, pass _⟩
  | keyword hne' hy =>
    obtain ⟨g1, g2, g3⟩ := hashWord_back hne' hy Y
    exact ⟨none, none, _, badName_run total hne hy hY g1 g2 g3 l, pass _⟩

end

end Kdl
