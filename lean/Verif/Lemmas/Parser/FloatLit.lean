import Verif.Lemmas.FloatRead
/-
Which float literals the parser accepts.
-/

namespace Kdl
open Spec

/-! ### Digit groups -/

theorem Spec.DigitGroup.read {ds r : Str} (h : DigitGroup ds) (hr : ∀ x q, r = x :: q → isGrp isDecDigit x = false) :
    Reads udecimal (ds ++ r) r (litVal 10 ds) := by
  obtain ⟨c, t, rfl, hd⟩ := h.digits
  exact reads_udecimal hd hr

theorem Spec.DigitGroup.head {ds r : Str} (h : DigitGroup ds) : ∃ c q, ds ++ r = c :: q ∧ isDecDigit c = true := by
  obtain ⟨c, t, rfl, hd⟩ := h.digits
  exact ⟨c, t ++ r, rfl, hd.1⟩

theorem Spec.DigitGroup.readSigned {sg ds r : Str} {k : Int} (hs : Sign sg k) (h : DigitGroup ds)
    (hr : ∀ x q, r = x :: q → isGrp isDecDigit x = false) :
    ((litVal 10 ds : Int) ≤ i128Max → ∃ x, decimal (sg ++ (ds ++ r)) = .ok x r) ∧
    (¬ (litVal 10 ds : Int) ≤ i128Max → decimal (sg ++ (ds ++ r)) = .back) := by
  have hrd := h.read hr
  obtain ⟨c, t, rfl, hd⟩ := h.digits
  have hf := dec_facts (hex_of_dec hd.1)
  obtain ⟨b, hsig, hb⟩ := signum_sign hs (c := c) (q := t ++ r) hf.1 hf.2.1
  constructor
  · intro hm
    obtain ⟨x, hx, hv⟩ := hrd.1 hm
    obtain ⟨y, hy, _⟩ := signedP_ok hsig hb hs.cases hx hv
    exact ⟨y, hy⟩
  · intro hm
    exact signedP_back hsig (hrd.2 hm)

/-- A character that starts a fraction or an exponent. -/
theorem expText_grp {x : Option ExpPart} (h : ∀ y, x = some y → y.mark = 'e' ∨ y.mark = 'E') {r : Str}
    (hr : ∀ x q, r = x :: q → isGrp isDecDigit x = false) :
    ∀ c q, FloatNum.expText x ++ r = c :: q → isGrp isDecDigit c = false := by
  cases x with
  | none => exact hr
  | some y =>
    intro c q e
    simp only [FloatNum.expText, List.cons_append, List.cons.injEq] at e
    rw [← e.1]
    rcases h y rfl with h | h <;> rw [h] <;> decide

theorem fracText_grp {f : Option Str} {r : Str} (hr : ∀ x q, r = x :: q → isGrp isDecDigit x = false) :
    ∀ c q, FloatNum.fracText f ++ r = c :: q → isGrp isDecDigit c = false := by
  cases f with
  | none => exact hr
  | some y =>
    intro c q e
    simp only [FloatNum.fracText, List.cons_append, List.cons.injEq] at e
    rw [← e.1]
    decide

theorem FloatNum.text_append (p : FloatNum) (r : Str) :
    p.text ++ r = p.sign ++ (p.int ++ (FloatNum.fracText p.frac ++ (FloatNum.expText p.exp ++ r))) := by
  simp [FloatNum.text]

theorem Spec.FloatNum.Ok.numberLike {p : FloatNum} (h : p.Ok) (r : Str) : NumberLike (p.text ++ r) := by
  obtain ⟨k, hk⟩ := h.sign
  obtain ⟨c, t, e, hc, _⟩ := h.int
  refine ⟨p.sign, k, [], c, t ++ (FloatNum.fracText p.frac ++ (FloatNum.expText p.exp ++ r)), hk, Or.inl rfl, hc, ?_⟩
  rw [FloatNum.text_append, e]
  simp

/-! ### Accepted literals -/

/-- The optional fraction. -/
def fracP : P (Option I128) := opt (do lit ['.']; cutErr udecimal)

theorem fracP_eq {f : Option Str} (h : ∀ g, f = some g → DigitGroup g) {r : Str}
    (hr : ∀ x q, r = x :: q → isGrp isDecDigit x = false) (hdot : ∀ q, r ≠ '.' :: q) :
    ((∀ g, f = some g → (litVal 10 g : Int) ≤ i128Max) → ∃ y, fracP (FloatNum.fracText f ++ r) = .ok y r) ∧
    (∀ g, f = some g → ¬ (litVal 10 g : Int) ≤ i128Max → fracP (FloatNum.fracText f ++ r) = .cut) := by
  cases f with
  | none => exact ⟨fun _ => ⟨none, opt_none (bind_back (lit_back.mpr hdot))⟩, by rintro g ⟨⟩⟩
  | some g =>
    have hrd := (h g rfl).read hr
    constructor
    · intro hm
      obtain ⟨x, hx, _⟩ := hrd.1 (hm g rfl)
      refine ⟨some x, opt_some ?_⟩
      show (do lit ['.']; cutErr udecimal : P I128) ('.' :: (g ++ r)) = _
      rw [bind_eq (lit_one _ _)]
      exact cutErr_eq hx
    · rintro _ ⟨⟩ hm
      have : (do lit ['.']; cutErr udecimal : P I128) ('.' :: (g ++ r)) = .cut := by
        rw [bind_eq (lit_one _ _)]
        exact cutErr_back (hrd.2 hm)
      show opt (do lit ['.']; cutErr udecimal : P I128) ('.' :: (g ++ r)) = .cut
      unfold opt
      rw [this]

/-- The exponent. -/
def expP : P Unit := do
  let _ ← satisfy fun c => c == 'e' || c == 'E'
  let _ ← opt (satisfy fun c => c == '-' || c == '+')
  void (cutErr udecimal)

theorem floatExp_eq : floatExp = (do let _ ← decimal; let _ ← fracP; expP) := rfl

theorem void_cut {α : Type} {p : P α} {s : Str} (h : p s = .cut) : void p s = .cut := by
  unfold void
  rw [bind_cut h]

theorem expP_eq {x : ExpPart} (hm : x.mark = 'e' ∨ x.mark = 'E') {k : Int} (hs : Sign x.sign k) (hd : DigitGroup x.digits)
    {r : Str} (hr : ∀ x q, r = x :: q → isGrp isDecDigit x = false) :
    ((litVal 10 x.digits : Int) ≤ i128Max → expP (FloatNum.expText (some x) ++ r) = .ok () r) ∧
    (¬ (litVal 10 x.digits : Int) ≤ i128Max → expP (FloatNum.expText (some x) ++ r) = .cut) := by
  have hrd := hd.read hr
  have e : FloatNum.expText (some x) ++ r = x.mark :: (x.sign ++ (x.digits ++ r)) := by simp [FloatNum.expText]
  obtain ⟨c, q, hq, hc⟩ := hd.head (r := r)
  have o2 : ∃ w, opt (satisfy fun c => c == '-' || c == '+') (x.sign ++ (x.digits ++ r)) = .ok w (x.digits ++ r) := by
    generalize x.sign = sg at hs
    cases hs with
    | none =>
      refine ⟨none, opt_none (satisfy_back.mpr ?_)⟩
      intro c' q' e'
      rw [List.nil_append, hq] at e'
      cases e'
      have := dec_ne hc
      simp [this.2.2.2.1, this.2.2.2.2.1]
    | plus => exact ⟨some '+', opt_some (satisfy_eq (by decide))⟩
    | minus => exact ⟨some '-', opt_some (satisfy_eq (by decide))⟩
  obtain ⟨w, hw⟩ := o2
  have h1 : satisfy (fun c => c == 'e' || c == 'E') (x.mark :: (x.sign ++ (x.digits ++ r))) =
      .ok x.mark (x.sign ++ (x.digits ++ r)) := satisfy_eq (by rcases hm with hm | hm <;> rw [hm] <;> decide)
  constructor
  · intro hf
    obtain ⟨z, hz, _⟩ := hrd.1 hf
    unfold expP
    rw [e, bind_eq h1, bind_eq hw]
    exact void_eq (cutErr_eq hz)
  · intro hf
    unfold expP
    rw [e, bind_eq h1, bind_eq hw]
    exact void_cut (cutErr_back (hrd.2 hf))

theorem expP_back {r : Str} (h : ∀ x q, r = x :: q → x ≠ 'e' ∧ x ≠ 'E') : expP r = .back := by
  refine bind_back (satisfy_back.mpr fun c q e => ?_)
  have := h c q e
  simp [this.1, this.2]

/-- What the parser makes of a float literal. -/
theorem float_lit {p : FloatNum} (h : p.Ok) {r : Str} (hr : Ends r) :
    (p.Fits → (floatExp <+> floatFrac) (p.text ++ r) = .ok () r) ∧
    ((litVal 10 p.int : Int) ≤ i128Max → ¬ p.Fits → (floatExp <+> floatFrac) (p.text ++ r) = .cut) ∧
    (¬ (litVal 10 p.int : Int) ≤ i128Max → (floatExp <+> floatFrac) (p.text ++ r) = .back ∧
      decimal (p.text ++ r) = .back) := by
  obtain ⟨k, hk⟩ := h.sign
  have hrs := hr.stop.grp (fun _ => hex_of_dec) (f := isDecDigit)
  have hstop : ∀ x q, r = x :: q → x ≠ '.' ∧ x ≠ 'e' ∧ x ≠ 'E' := by
    intro x q e
    have := hr.stop x q e
    refine ⟨?_, ?_, ?_⟩ <;> rintro rfl <;> exact absurd this (by decide)
  have g1 := expText_grp (x := p.exp) (fun y hy => (h.exp y hy).1) hrs
  have g2 := fracText_grp (f := p.frac) g1
  have hdot : ∀ q, FloatNum.expText p.exp ++ r ≠ '.' :: q := by
    intro q e
    cases hx : p.exp with
    | none =>
      rw [hx] at e
      exact (hstop '.' q e).1 rfl
    | some y =>
      rw [hx] at e
      simp only [FloatNum.expText, List.cons_append, List.cons.injEq] at e
      rcases (h.exp y hx).1 with h | h <;> rw [h] at e <;> exact absurd e.1 (by decide)
  have hint := h.int.readSigned hk g2
  have hfrac := fracP_eq h.frac g1 hdot
  rw [← FloatNum.text_append] at hint
  refine ⟨fun hf => ?_, fun hi hf => ?_, fun hi => ?_⟩
  · obtain ⟨x, hx⟩ := hint.1 hf.int
    obtain ⟨y, hy⟩ := hfrac.1 hf.frac
    cases he : p.exp with
    | some z =>
      obtain ⟨h1, ⟨k', h2⟩, h3⟩ := h.exp z he
      have hexp := (expP_eq h1 h2 h3 hrs).1 (hf.exp z he)
      rw [← he] at hexp
      apply alt_left
      rw [floatExp_eq, bind_eq hx, bind_eq hy]
      exact hexp
    | none =>
      have hne : p.frac ≠ none := h.some.resolve_right (by simp [he])
      cases hfr : p.frac with
      | none => exact absurd hfr hne
      | some g =>
        rw [he] at hy hx
        have hb : floatExp (p.text ++ r) = .back := by
          rw [floatExp_eq, bind_eq hx, bind_eq hy]
          exact expP_back fun x q e => (hstop x q e).2
        rw [alt_right hb]
        unfold floatFrac
        rw [bind_eq hx, hfr]
        simp only [FloatNum.fracText, FloatNum.expText, List.cons_append, List.nil_append]
        rw [bind_eq (lit_one _ _)]
        obtain ⟨w, hw, _⟩ := ((h.frac g hfr).read hrs).1 (hf.frac g hfr)
        exact void_eq (cutErr_eq hw)
  · obtain ⟨x, hx⟩ := hint.1 hi
    apply alt_cut
    rw [floatExp_eq, bind_eq hx]
    by_cases hff : ∀ g, p.frac = some g → (litVal 10 g : Int) ≤ i128Max
    · obtain ⟨y, hy⟩ := hfrac.1 hff
      cases he : p.exp with
      | none => exact absurd ⟨hi, hff, by rw [he]; rintro _ ⟨⟩⟩ hf
      | some z =>
        obtain ⟨h1, ⟨k', h2⟩, h3⟩ := h.exp z he
        have hz : ¬ (litVal 10 z.digits : Int) ≤ i128Max := by
          intro hz
          refine hf ⟨hi, hff, fun w hw => ?_⟩
          rw [he] at hw
          cases hw
          exact hz
        have hexp := (expP_eq h1 h2 h3 hrs).2 hz
        rw [he] at hy
        rw [bind_eq hy]
        exact hexp
    · cases hfr : p.frac with
      | none => exact absurd (by rw [hfr]; rintro _ ⟨⟩) hff
      | some g =>
        have hg : ¬ (litVal 10 g : Int) ≤ i128Max := by
          intro hg
          refine hff fun w hw => ?_
          rw [hfr] at hw
          cases hw
          exact hg
        have := hfrac.2 g hfr hg
        rw [hfr] at this
        exact bind_cut this
  · have hb := hint.2 hi
    refine ⟨?_, hb⟩
    rw [alt_right (p := floatExp) (bind_back hb)]
    exact bind_back hb

section
variable [FloatIO]

theorem floatValue_lit {p : FloatNum} (h : p.Ok) (hf : p.Fits) {r : Str} (hr : Ends r) :
    floatValue (p.text ++ r) = .ok (.float (FloatIO.parse (dropUnderscores p.text))) r := by
  unfold floatValue
  rw [bind_eq (takeP_eq ((float_lit h hr).1 hf)), bind_eq hr.check]
  rfl

theorem valueBody_lit {p : FloatNum} (h : p.Ok) (hf : p.Fits) {r : Str} (hr : Ends r) :
    valueBody (p.text ++ r) = .ok (.float (FloatIO.parse (dropUnderscores p.text))) r := by
  rw [valueBody_num (h.numberLike r)]
  apply alt_left
  unfold number
  exact alt_left (floatValue_lit h hf hr)

theorem takeP_cut' {α : Type} {p : P α} {s : Str} (h : p s = .cut) : takeP p s = .cut := by
  unfold takeP
  rw [bind_eq (p := here) (a := s) (r := s) rfl, bind_cut h]

/-- The other bases do not apply. -/
theorem integerValue_float_back {p : FloatNum} (h : p.Ok) {r : Str} (hd : decimal (p.text ++ r) = .back) :
    integerValue (p.text ++ r) = .back := by
  obtain ⟨k, hk⟩ := h.sign
  obtain ⟨c, t, e, hc⟩ := h.int.digits
  have et : p.text ++ r = p.sign ++ c :: (t ++ (FloatNum.fracText p.frac ++ (FloatNum.expText p.exp ++ r))) := by
    rw [FloatNum.text_append, e]
    simp
  have hfc := dec_facts (hex_of_dec hc.1)
  obtain ⟨b, hsig, _⟩ := signum_sign hk (c := c) (q := t ++ (FloatNum.fracText p.frac ++ (FloatNum.expText p.exp ++ r)))
    hfc.1 hfc.2.1
  have hfacts : ∀ d q, t ++ (FloatNum.fracText p.frac ++ (FloatNum.expText p.exp ++ r)) = d :: q →
      (d ≠ 'x' ∧ d ≠ 'X') ∧ (d ≠ 'o' ∧ d ≠ 'O') ∧ (d ≠ 'b' ∧ d ≠ 'B') := by
    intro d q ed
    cases t with
    | nil =>
      have : d = '.' ∨ d = 'e' ∨ d = 'E' := by
        cases hf : p.frac with
        | some g =>
          rw [hf] at ed
          simp only [FloatNum.fracText, List.nil_append, List.cons_append, List.cons.injEq] at ed
          exact Or.inl ed.1.symm
        | none =>
          cases hx : p.exp with
          | none => exact absurd h.some (by simp [hf, hx])
          | some y =>
            rw [hf, hx] at ed
            simp only [FloatNum.fracText, FloatNum.expText, List.nil_append, List.cons_append, List.cons.injEq] at ed
            rw [← ed.1]
            exact Or.inr (h.exp y hx).1
      rcases this with rfl | rfl | rfl <;> decide
    | cons d' t' =>
      cases ed
      have := hc.2 d (List.mem_cons_self ..)
      refine ⟨⟨?_, ?_⟩, ⟨?_, ?_⟩, ⟨?_, ?_⟩⟩ <;> rintro rfl <;> revert this <;> decide
  have hback : ∀ q, q = t ++ (FloatNum.fracText p.frac ++ (FloatNum.expText p.exp ++ r)) → uhex (c :: q) = .back ∧
      uoctal (c :: q) = .back ∧ ubinary (c :: q) = .back := by
    intro q hq
    cases hq' : q with
    | nil => exact prefixed_back_one
    | cons d q' =>
      have := hfacts d q' (by rw [← hq, hq'])
      exact ⟨prefixed_back.1 this.1, prefixed_back.2.1 this.2.1, prefixed_back.2.2 this.2.2⟩
  obtain ⟨b1, b2, b3⟩ := hback _ rfl
  unfold integerValue
  apply bind_back
  rw [← et] at hsig
  have hx : hex (p.text ++ r) = .back := signedP_back hsig b1
  have ho : octal (p.text ++ r) = .back := signedP_back hsig b2
  have hb : binary (p.text ++ r) = .back := signedP_back hsig b3
  rw [alt_right (bind_back hx), alt_right (bind_back ho), alt_right (bind_back hb)]
  exact bind_back hd

theorem valueBody_lit_out {p : FloatNum} (h : p.Ok) (hf : ¬ p.Fits) {r : Str} (hr : Ends r) :
    valueBody (p.text ++ r) = .back ∨ valueBody (p.text ++ r) = .cut := by
  rw [valueBody_num (h.numberLike r)]
  obtain ⟨_, h2, h3⟩ := float_lit h hr
  by_cases hi : (litVal 10 p.int : Int) ≤ i128Max
  · right
    apply alt_cut
    unfold number
    apply alt_cut
    exact bind_cut (takeP_cut' (h2 hi hf))
  · left
    obtain ⟨a1, a2⟩ := h3 hi
    have hn : number (p.text ++ r) = .back := by
      unfold number
      rw [alt_right (p := floatValue) (bind_back (takeP_back a1))]
      exact integerValue_float_back h a2
    rw [alt_right hn]
    exact bind_back (stringP_num (h.numberLike r))

/-! ### Floats come from float literals -/

omit [FloatIO] in
theorem udecimal_digitGroup {s r : Str} {x : I128} (h : udecimal s = .ok x r) : ∃ ds, DigitGroup ds ∧ s = ds ++ r ∧
    (litVal 10 ds : Int) ≤ i128Max := by
  obtain ⟨c, ds, h1, rfl, h2⟩ := udecimal_inv h
  exact ⟨c :: ds, .of h1, rfl, by rw [← h2]; exact x.property.2⟩

omit [FloatIO] in
theorem decimal_digitGroup {s r : Str} {x : I128} (h : decimal s = .ok x r) : ∃ sg k ds, Sign sg k ∧ DigitGroup ds ∧
    s = sg ++ (ds ++ r) ∧ (litVal 10 ds : Int) ≤ i128Max := by
  obtain ⟨sg, k, q, y, hs, rfl, h1, _⟩ := signedP_inv h
  obtain ⟨ds, hd, rfl, hm⟩ := udecimal_digitGroup h1
  exact ⟨sg, k, ds, hs, hd, rfl, hm⟩

omit [FloatIO] in
theorem fracP_group {s r : Str} {y : Option I128} (h : fracP s = .ok y r) : ∃ f, (∀ g, f = some g → DigitGroup g ∧
    (litVal 10 g : Int) ≤ i128Max) ∧ s = FloatNum.fracText f ++ r := by
  rcases opt_ok.mp h with ⟨x, rfl, hx⟩ | ⟨rfl, rfl, _⟩
  · rw [bind_ok] at hx
    obtain ⟨_, q, h1, h2⟩ := hx
    rw [lit_ok] at h1
    obtain ⟨ds, hd, rfl, hm⟩ := udecimal_digitGroup (cutErr_ok.mp h2)
    refine ⟨some ds, ?_, ?_⟩
    · rintro _ ⟨⟩; exact ⟨hd, hm⟩
    · rw [h1]; rfl
  · exact ⟨none, by rintro _ ⟨⟩, rfl⟩

omit [FloatIO] in
theorem expP_group {s r : Str} {u : Unit} (h : expP s = .ok u r) : ∃ x : ExpPart, (x.mark = 'e' ∨ x.mark = 'E') ∧
    (∃ k, Sign x.sign k) ∧ DigitGroup x.digits ∧ (litVal 10 x.digits : Int) ≤ i128Max ∧
    s = FloatNum.expText (some x) ++ r := by
  unfold expP at h
  rw [bind_ok] at h
  obtain ⟨m, q, h1, h⟩ := h
  rw [bind_ok] at h
  obtain ⟨o, q', h2, h⟩ := h
  obtain ⟨_, h⟩ := void_ok.mp h
  obtain ⟨ds, hd, rfl, hm⟩ := udecimal_digitGroup (cutErr_ok.mp h)
  obtain ⟨rfl, hmark⟩ := satisfy_ok.mp h1
  have hmark' : m = 'e' ∨ m = 'E' := by simpa using hmark
  rcases opt_ok.mp h2 with ⟨c, rfl, h3⟩ | ⟨rfl, rfl, _⟩
  · obtain ⟨rfl, hc⟩ := satisfy_ok.mp h3
    have hc' : c = '-' ∨ c = '+' := by simpa using hc
    refine ⟨⟨m, [c], ds⟩, hmark', ?_, hd, hm, rfl⟩
    rcases hc' with rfl | rfl
    · exact ⟨-1, .minus⟩
    · exact ⟨1, .plus⟩
  · exact ⟨⟨m, [], ds⟩, hmark', ⟨1, .none⟩, hd, hm, rfl⟩

/-- An accepted float was written as a float literal. -/
theorem floatValue_num {s r : Str} {v : Value} (h : floatValue s = .ok v r) :
    ∃ p : FloatNum, p.Ok ∧ p.Fits ∧ s = p.text ++ r ∧ v = .float (FloatIO.parse (dropUnderscores p.text)) := by
  unfold floatValue at h
  rw [bind_ok] at h
  obtain ⟨t, q, h1, h⟩ := h
  rw [bind_ok] at h
  obtain ⟨_, q', h2, h⟩ := h
  obtain ⟨rfl, rfl⟩ := pure_ok.mp h
  obtain ⟨_, hq⟩ := check_ok h2
  subst hq
  have key : ∃ p : FloatNum, p.Ok ∧ p.Fits ∧ s = p.text ++ r := by
    obtain ⟨_, _, h1⟩ := takeP_ok.mp h1
    rcases alt_ok.mp h1 with h1 | ⟨_, h1⟩
    · rw [floatExp_eq, bind_ok] at h1
      obtain ⟨x, q1, a1, h1⟩ := h1
      rw [bind_ok] at h1
      obtain ⟨y, q2, a2, a3⟩ := h1
      obtain ⟨sg, k, ds, hs, hd, rfl, hm⟩ := decimal_digitGroup a1
      obtain ⟨f, hf, rfl⟩ := fracP_group a2
      obtain ⟨z, z1, z2, z3, z4, rfl⟩ := expP_group a3
      refine ⟨⟨sg, ds, f, some z⟩, ⟨⟨k, hs⟩, hd, fun g hg => (hf g hg).1, ?_, Or.inr (by simp)⟩,
        ⟨hm, fun g hg => (hf g hg).2, ?_⟩, ?_⟩
      · rintro _ ⟨⟩; exact ⟨z1, z2, z3⟩
      · rintro _ ⟨⟩; exact z4
      · rw [FloatNum.text_append]
    · unfold floatFrac at h1
      rw [bind_ok] at h1
      obtain ⟨x, q1, a1, h1⟩ := h1
      rw [bind_ok] at h1
      obtain ⟨_, q2, a2, a3⟩ := h1
      obtain ⟨_, a4⟩ := void_ok.mp a3
      obtain ⟨sg, k, ds, hs, hd, rfl, hm⟩ := decimal_digitGroup a1
      rw [lit_ok] at a2
      obtain ⟨g, hg, rfl, hgm⟩ := udecimal_digitGroup (cutErr_ok.mp a4)
      subst a2
      refine ⟨⟨sg, ds, some g, none⟩, ⟨⟨k, hs⟩, hd, ?_, by rintro _ ⟨⟩, Or.inl (by simp)⟩,
        ⟨hm, ?_, by rintro _ ⟨⟩⟩, ?_⟩
      · rintro _ ⟨⟩; exact hg
      · rintro _ ⟨⟩; exact hgm
      · rw [FloatNum.text_append]
        simp [FloatNum.fracText, FloatNum.expText]
  obtain ⟨p, hp, hf, rfl⟩ := key
  have hv := (takeP_ok.mp h1)
  refine ⟨p, hp, hf, rfl, ?_⟩
  obtain ⟨ht, _⟩ := hv
  have : t = p.text := by
    rw [ht, taken_append]
  rw [this]

end

end Kdl
