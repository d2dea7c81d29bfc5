import Verif.Lemmas.FloatDigits
import Verif.Lemmas.Parser.Print
/-
Reading float literals.
-/

namespace Kdl
open Spec

/-! ### Floats and their bits -/

theorem F64.eq_of_bits {x y : F64} (h : x.bits.val = y.bits.val) : x = y := by
  obtain ⟨⟨a, ha⟩⟩ := x
  obtain ⟨⟨b, hb⟩⟩ := y
  cases h
  rfl

theorem F64.notNan_iff {x : F64} : x.isNan = false ↔ x.bits.val % 2 ^ 63 ≤ infBits := by
  have h := x.bits.isLt
  simp only [F64.isNan, F64.expo, F64.mant, infBits]
  rw [Bool.and_eq_false_iff]
  simp only [beq_eq_false_iff_ne, bne_eq_false_iff_eq]
  omega

theorem F64.finite_iff {x : F64} : x.isFinite = true ↔ x.bits.val % 2 ^ 63 < infBits := by
  have h := x.bits.isLt
  simp only [F64.isFinite, F64.expo, infBits, bne_iff_ne]
  omega

theorem F64.inf_iff {x : F64} : x.isInf = true ↔ x.bits.val % 2 ^ 63 = infBits := by
  have h := x.bits.isLt
  simp only [F64.isInf, F64.expo, F64.mant, infBits, Bool.and_eq_true, beq_iff_eq]
  omega

theorem magOf_scaled {x : F64} : magOf (x.bits.val % 2 ^ 63) = x.scaledMag := by
  have h := x.bits.isLt
  have e1 : x.bits.val % 2 ^ 63 / 2 ^ 52 = x.expo := by unfold F64.expo; omega
  have e2 : x.bits.val % 2 ^ 63 % 2 ^ 52 = x.mant := by unfold F64.mant; omega
  unfold magOf F64.scaledMag
  rw [e1, e2]
  split
  · omega
  · rfl

theorem magOf_mag {x : F64} : magOf (x.bits.val % 2 ^ 63) = mag x := by
  unfold mag
  split
  · rename_i h
    rw [F64.inf_iff.mp h]
    have e : infBits = 2046 * 2 ^ 52 + 2 ^ 52 := by decide
    rw [e, magOf_high (Nat.le_refl _) (by decide), ← Nat.pow_add, ← Nat.pow_add]
  · exact magOf_scaled

theorem mant_mod (x : F64) : x.mant % 2 = x.bits.val % 2 ^ 63 % 2 := by
  unfold F64.mant
  omega

theorem signedBits_bits (neg : Bool) (b : Nat) (h : b ≤ infBits) :
    (signedBits neg b h).neg = neg ∧ (signedBits neg b h).bits.val % 2 ^ 63 = b := by
  unfold signedBits F64.neg
  unfold infBits at h
  cases neg <;> simp <;> omega

theorem signedBits_self {x : F64} (h : x.bits.val % 2 ^ 63 ≤ infBits) :
    signedBits x.neg (x.bits.val % 2 ^ 63) h = x := by
  have hx := x.bits.isLt
  refine F64.eq_of_bits ?_
  unfold signedBits F64.neg
  simp only
  split <;> rename_i h1 <;> simp at h1 <;> omega

theorem signedBits_congr {n n' : Bool} {b b' : Nat} {h : b ≤ infBits} {h' : b' ≤ infBits} (hn : n = n') (hb : b = b') :
    signedBits n b h = signedBits n' b' h' := by
  cases hn
  cases hb
  rfl

/-- The nearest float, in terms of its bits. -/
theorem nearestFloat_iff {c : Nat} {e : Int} {x : F64} :
    NearestFloat c e x ↔ Nearest (decNum c e) (decDen e) (x.bits.val % 2 ^ 63) := by
  unfold NearestFloat Nearest
  rw [F64.notNan_iff, magOf_mag]
  refine and_congr_right fun h0 => ?_
  constructor
  · intro h b hb
    have hs := signedBits_bits false b hb
    have := h (signedBits false b hb) (F64.notNan_iff.mpr (by rw [hs.2]; exact hb))
    simp only at this
    rw [← magOf_mag (x := signedBits false b hb), hs.2] at this
    rw [← mant_mod]
    refine ⟨this.1, fun he hne => this.2 he fun hc => hne ?_⟩
    refine magOf_inj (hc.trans magOf_mag.symm)
  · intro h y hy
    have := h _ (F64.notNan_iff.mp hy)
    rw [magOf_mag, ← mant_mod] at this
    refine ⟨this.1, fun he hne => this.2 he fun hc => hne ?_⟩
    rw [← magOf_mag, ← magOf_mag, hc]

theorem nearestFloat_signed (n : Bool) (c : Nat) (e : Int) :
    NearestFloat c e (signedBits n (decBits c e) (decBits_le _ _)) := by
  rw [nearestFloat_iff, (signedBits_bits _ _ _).2]
  exact nearestBits_near _ (decDen_pos _)

theorem nearestFloat_bits {c : Nat} {e : Int} {x : F64} (h : NearestFloat c e x) :
    decBits c e = x.bits.val % 2 ^ 63 :=
  nearestBits_eq (decDen_pos _) (nearestFloat_iff.mp h)

/-- A literal denotes one float only. -/
theorem Spec.Denotes.eq {p : FloatNum} {x : F64} (h : Denotes p x) :
    x = signedBits p.neg (decBits p.coeff p.exponent) (decBits_le _ _) := by
  have hb := nearestFloat_bits h.2
  have hn := F64.notNan_iff.mp h.2.1
  rw [← signedBits_self hn]
  exact signedBits_congr h.1 hb.symm

theorem denotes_signed (p : FloatNum) : Denotes p (signedBits p.neg (decBits p.coeff p.exponent) (decBits_le _ _)) :=
  ⟨(signedBits_bits _ _ _).1, nearestFloat_signed _ _ _⟩

/-! ### Digit groups -/

theorem Spec.DigitGroup.digits {ds : Str} (h : DigitGroup ds) : ∃ c t, ds = c :: t ∧ Digits isDecDigit c t := by
  obtain ⟨c, t, rfl, h1, h2⟩ := h
  refine ⟨c, t, rfl, isDigit_iff.1.mp h1, fun x hx => ?_⟩
  rcases h2 x hx with rfl | h
  · decide
  · simp [isGrp, isDigit_iff.1.mp h]

theorem Spec.DigitGroup.of {c : Char} {t : Str} (h : Digits isDecDigit c t) : DigitGroup (c :: t) := by
  refine ⟨c, t, rfl, isDigit_iff.1.mpr h.1, fun x hx => ?_⟩
  have := h.2 x hx
  simp only [isGrp, Bool.or_eq_true, beq_iff_eq] at this
  exact this.symm.imp id isDigit_iff.1.mpr

/-- What is left of a group without its underscores. -/
theorem Spec.DigitGroup.clean {ds : Str} (h : DigitGroup ds) :
    (∃ c t, dropUnderscores ds = c :: t ∧ isDecDigit c = true) ∧ (∀ x ∈ dropUnderscores ds, isDecDigit x = true) ∧
    digitsVal 10 (dropUnderscores ds) = litVal 10 ds ∧ (dropUnderscores ds).length = numDigits ds := by
  obtain ⟨c, t, rfl, h1, h2⟩ := h
  have hc := isDigit_iff.1.mp h1
  have hu : c ≠ '_' := by rintro rfl; exact absurd hc (by decide)
  have hall : ∀ x ∈ c :: t, x = '_' ∨ isDecDigit x = true := by
    intro x hx
    rcases List.mem_cons.mp hx with rfl | hx
    · exact Or.inr hc
    · exact (h2 x hx).imp id isDigit_iff.1.mp
  refine ⟨⟨c, dropUnderscores t, by simp [dropUnderscores, hu], hc⟩, ?_, ?_, ?_⟩
  · intro x hx
    unfold dropUnderscores at hx
    rw [List.mem_filter] at hx
    refine (hall x hx.1).resolve_left ?_
    simpa using hx.2
  · exact digitsVal_litVal fun x hx => (hall x hx).imp id hex_of_dec
  · unfold dropUnderscores numDigits
    congr 2
    funext x
    by_cases hx : x = '_' <;> simp [hx]

/-! ### Reading the text -/

theorem dec_ne {c : Char} (h : isDecDigit c = true) : c ≠ 'e' ∧ c ≠ 'E' ∧ c ≠ '.' ∧ c ≠ '-' ∧ c ≠ '+' ∧ c ≠ '_' := by
  refine ⟨?_, ?_, ?_, ?_, ?_, ?_⟩ <;> rintro rfl <;> exact absurd h (by decide)

theorem readSign_digit {c : Char} {t : Str} (h : isDecDigit c = true) : readSign (c :: t) = (false, c :: t) := by
  have := dec_ne h
  unfold readSign
  split
  · rename_i e
    simp only [List.cons.injEq] at e
    exact absurd e.1 this.2.2.2.1
  · rename_i e
    simp only [List.cons.injEq] at e
    exact absurd e.1 this.2.2.2.2.1
  · rfl

theorem readSign_sign {sg : Str} {k : Int} (hs : Sign sg k) {c : Char} {t : Str} (h : isDecDigit c = true) :
    readSign (sg ++ c :: t) = (sg == ['-'], c :: t) := by
  cases hs with
  | none => exact readSign_digit h
  | plus => rfl
  | minus => rfl

/-- Splitting at the first character that fails the test. -/
theorem span_at {f : Char → Bool} {a b : Str} (ha : ∀ x ∈ a, f x = true) (hb : ∀ x q, b = x :: q → f x = false) :
    (a ++ b).takeWhile f = a ∧ (a ++ b).dropWhile f = b := by
  rw [List.takeWhile_append_of_pos ha, List.dropWhile_append_of_pos ha]
  cases b with
  | nil => simp
  | cons x q =>
    have := hb x q rfl
    simp [this]

/-- A literal without underscores. -/
structure CleanLit (p : FloatNum) : Prop where
  sign : ∃ k, Sign p.sign k
  int : (∃ c t, p.int = c :: t) ∧ ∀ x ∈ p.int, isDecDigit x = true
  frac : ∀ f, p.frac = some f → ∀ x ∈ f, isDecDigit x = true
  exp : ∀ x, p.exp = some x → (x.mark = 'e' ∨ x.mark = 'E') ∧ (∃ k, Sign x.sign k) ∧ (∃ c t, x.digits = c :: t) ∧
    ∀ y ∈ x.digits, isDecDigit y = true

/-- The exponent of a literal without underscores. -/
def rawExp : Option ExpPart → Int
  | none => 0
  | some x => if x.sign = ['-'] then -(digitsVal 10 x.digits : Int) else digitsVal 10 x.digits

theorem readFloat_clean {p : FloatNum} (h : CleanLit p) :
    readFloat p.text = signedBits p.neg
      (decBits (digitsVal 10 (p.int ++ p.frac.getD [])) (rawExp p.exp - (p.frac.getD []).length)) (decBits_le _ _) := by
  obtain ⟨⟨k, hk⟩, ⟨⟨c, t, hct⟩, hint⟩, hfrac, hexp⟩ := h
  have e0 : p.text = p.sign ++ c :: (t ++ FloatNum.fracText p.frac ++ FloatNum.expText p.exp) := by
    unfold FloatNum.text
    rw [hct]
    simp
  have hc : isDecDigit c = true := hint c (by rw [hct]; simp)
  have h1 : readSign p.text = (p.neg, p.int ++ FloatNum.fracText p.frac ++ FloatNum.expText p.exp) := by
    rw [e0, readSign_sign hk hc, hct]
    simp [FloatNum.neg]
  have hfd : ∀ x ∈ p.frac.getD [], isDecDigit x = true := by
    cases hf : p.frac with
    | none => simp
    | some f => exact hfrac f hf
  have hbody : ∀ x ∈ p.int ++ FloatNum.fracText p.frac, (x != 'e' && x != 'E') = true := by
    intro x hx
    rcases List.mem_append.mp hx with hx | hx
    · have := dec_ne (hint x hx)
      simp [this.1, this.2.1]
    · cases hf : p.frac with
      | none => rw [hf] at hx; cases hx
      | some f =>
        rw [hf] at hx
        rcases List.mem_cons.mp hx with rfl | hx
        · decide
        · have := dec_ne (hfrac f hf x hx)
          simp [this.1, this.2.1]
  have hex : ∀ x q, FloatNum.expText p.exp = x :: q → (x != 'e' && x != 'E') = false := by
    intro x q e
    cases hx : p.exp with
    | none => rw [hx] at e; cases e
    | some y =>
      rw [hx] at e
      have := (hexp y hx).1
      cases e
      rcases this with h | h <;> simp [h]
  have s1 := span_at hbody hex
  have s2 := span_at (f := (· != '.')) (a := p.int) (b := FloatNum.fracText p.frac)
    (fun x hx => by have := dec_ne (hint x hx); simp [this.2.2.1]) (by
      intro x q e
      cases hf : p.frac with
      | none => rw [hf] at e; cases e
      | some f => rw [hf] at e; cases e; decide)
  have s3 : (FloatNum.fracText p.frac).drop 1 = p.frac.getD [] := by
    cases p.frac <;> rfl
  have s4 : readExp ((FloatNum.expText p.exp).drop 1) = rawExp p.exp := by
    cases hx : p.exp with
    | none => rfl
    | some y =>
      obtain ⟨_, ⟨k', hk'⟩, ⟨c', t', hct'⟩, hall⟩ := hexp y hx
      have hc' : isDecDigit c' = true := hall c' (by rw [hct']; simp)
      have : readSign ((FloatNum.expText (some y)).drop 1) = (y.sign == ['-'], y.digits) := by
        show readSign (y.sign ++ y.digits) = _
        rw [hct', readSign_sign hk' hc']
      unfold readExp rawExp
      rw [this]
      simp
  unfold readFloat
  rw [h1]
  refine signedBits_congr rfl ?_
  simp only [s1.1, s1.2, s2.1, s2.2, s3, s4]

/-- The literal without its underscores. -/
def cleanLit (p : FloatNum) : FloatNum :=
  { sign := p.sign
    int := dropUnderscores p.int
    frac := p.frac.map dropUnderscores
    exp := p.exp.map fun x => { x with digits := dropUnderscores x.digits } }

theorem dropUnderscores_append (a b : Str) : dropUnderscores (a ++ b) = dropUnderscores a ++ dropUnderscores b := by
  simp [dropUnderscores]

theorem dropUnderscores_sign {sg : Str} {k : Int} (h : Sign sg k) : dropUnderscores sg = sg := by
  cases h <;> decide

theorem cleanLit_text {p : FloatNum} (h : p.Ok) : dropUnderscores p.text = (cleanLit p).text := by
  obtain ⟨⟨k, hk⟩, hint, hfrac, hexp, _⟩ := h
  unfold FloatNum.text cleanLit
  simp only [dropUnderscores_append, dropUnderscores_sign hk]
  have e1 : dropUnderscores (FloatNum.fracText p.frac) = FloatNum.fracText (p.frac.map dropUnderscores) := by
    cases p.frac with
    | none => rfl
    | some f => rfl
  have e2 : dropUnderscores (FloatNum.expText p.exp) =
      FloatNum.expText (p.exp.map fun x => { x with digits := dropUnderscores x.digits }) := by
    cases hx : p.exp with
    | none => rfl
    | some x =>
      obtain ⟨hm, ⟨k', hk'⟩, _⟩ := hexp x hx
      show dropUnderscores (x.mark :: (x.sign ++ x.digits)) = x.mark :: (x.sign ++ dropUnderscores x.digits)
      rw [← List.singleton_append, dropUnderscores_append, dropUnderscores_append, dropUnderscores_sign hk']
      rcases hm with hm | hm <;> rw [hm] <;> rfl
  rw [e1, e2]

theorem cleanLit_clean {p : FloatNum} (h : p.Ok) : CleanLit (cleanLit p) := by
  obtain ⟨hs, hint, hfrac, hexp, _⟩ := h
  refine ⟨hs, ⟨?_, hint.clean.2.1⟩, ?_, ?_⟩
  · obtain ⟨⟨c, t, e, _⟩, _⟩ := hint.clean
    exact ⟨c, t, e⟩
  · intro f hf
    simp only [cleanLit, Option.map_eq_some_iff] at hf
    obtain ⟨g, hg, rfl⟩ := hf
    exact (hfrac g hg).clean.2.1
  · intro x hx
    simp only [cleanLit, Option.map_eq_some_iff] at hx
    obtain ⟨y, hy, rfl⟩ := hx
    obtain ⟨h1, h2, h3⟩ := hexp y hy
    obtain ⟨⟨c, t, e, _⟩, h4, _⟩ := h3.clean
    exact ⟨h1, h2, ⟨c, t, e⟩, h4⟩

theorem cleanLit_coeff {p : FloatNum} (h : p.Ok) :
    digitsVal 10 ((cleanLit p).int ++ (cleanLit p).frac.getD []) = p.coeff := by
  have e : (cleanLit p).int ++ (cleanLit p).frac.getD [] = dropUnderscores (p.int ++ p.frac.getD []) := by
    unfold cleanLit
    rw [dropUnderscores_append]
    cases p.frac <;> rfl
  rw [e]
  refine digitsVal_litVal fun x hx => ?_
  have key : ∀ {ds : Str}, DigitGroup ds → ∀ x ∈ ds, x = '_' ∨ isHexDigit x = true := by
    rintro ds ⟨c, t, rfl, h1, h2⟩ x hx
    rcases List.mem_cons.mp hx with rfl | hx
    · exact Or.inr (hex_of_dec (isDigit_iff.1.mp h1))
    · exact (h2 x hx).imp id fun h => hex_of_dec (isDigit_iff.1.mp h)
  rcases List.mem_append.mp hx with hx | hx
  · exact key h.int x hx
  · cases hf : p.frac with
    | none => rw [hf] at hx; cases hx
    | some f => rw [hf] at hx; exact key (h.frac f hf) x hx

theorem cleanLit_exponent {p : FloatNum} (h : p.Ok) :
    rawExp (cleanLit p).exp - ((cleanLit p).frac.getD []).length = p.exponent := by
  have e1 : rawExp (cleanLit p).exp = FloatNum.expVal p.exp := by
    unfold cleanLit
    cases hx : p.exp with
    | none => rfl
    | some x =>
      have := (h.exp x hx).2.2.clean.2.2.1
      simp only [Option.map_some, rawExp, FloatNum.expVal, this]
  have e2 : ((cleanLit p).frac.getD []).length = numDigits (p.frac.getD []) := by
    unfold cleanLit
    cases hf : p.frac with
    | none => rfl
    | some f => exact (h.frac f hf).clean.2.2.2
  rw [e1, e2]
  rfl

/-- What is read for a literal is what it denotes. -/
theorem readFloat_lit {p : FloatNum} (h : p.Ok) : Denotes p (readFloat (dropUnderscores p.text)) := by
  rw [cleanLit_text h, readFloat_clean (cleanLit_clean h)]
  have := denotes_signed p
  simp only [cleanLit_coeff h, cleanLit_exponent h]
  exact this

end Kdl
