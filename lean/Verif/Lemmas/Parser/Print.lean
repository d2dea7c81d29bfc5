import Verif.Lemmas.Parser.Values
import Verif.Spec.Print
/-
Printed integers, floats and strings are read back.
-/

namespace Kdl
open Spec

/-! ### Integers -/

theorem digitChar_cases {d : Nat} (h : d < 10) :
    digitChar d ≠ '_' ∧ digit (digitChar d) = some d ∧ IsDigit 10 (digitChar d) := by
  have h1 : ∀ d, d < 10 → digitChar d ≠ '_' ∧ digit (digitChar d) = some d := by decide
  exact ⟨(h1 d h).1, (h1 d h).2, d, (h1 d h).2, h⟩

theorem numDigits_append (a b : Str) : numDigits (a ++ b) = numDigits a + numDigits b := by
  simp [numDigits]

theorem litVal_append (radix : Nat) : ∀ a b : Str,
    litVal radix (a ++ b) = litVal radix a * radix ^ numDigits b + litVal radix b
  | [], b => by simp [litVal]
  | c :: a, b => by
    rw [List.cons_append]
    have ih := litVal_append radix a b
    by_cases hc : c = '_'
    · simp only [litVal, hc, if_true]
      exact ih
    · simp only [litVal, hc, if_false]
      rw [ih, numDigits_append, Nat.pow_add, Nat.add_mul, Nat.mul_assoc, Nat.add_assoc]

theorem showNat_fuel : ∀ (fuel n : Nat), n < fuel →
    (((natDigitsRev fuel n).reverse).map digitChar ≠ []) ∧
    (∀ c ∈ ((natDigitsRev fuel n).reverse).map digitChar, IsDigit 10 c) ∧
    litVal 10 (((natDigitsRev fuel n).reverse).map digitChar) = n
  | 0, n, h => absurd h (Nat.not_lt_zero _)
  | fuel + 1, n, h => by
    unfold natDigitsRev
    split
    · rename_i hn
      have := digitChar_cases hn
      refine ⟨by simp, ?_, ?_⟩
      · intro c hc
        simp only [List.reverse_cons, List.reverse_nil, List.nil_append, List.map_cons, List.map_nil,
          List.mem_singleton] at hc
        subst hc
        exact this.2.2
      · simp [litVal, this.1, this.2.1, numDigits]
    · rename_i hn
      have hd : n % 10 < 10 := Nat.mod_lt _ (by decide)
      have hc := digitChar_cases hd
      obtain ⟨h1, h2, h3⟩ := showNat_fuel fuel (n / 10) (by omega)
      rw [List.reverse_cons, List.map_append]
      refine ⟨by simp, ?_, ?_⟩
      · intro c hc'
        rcases List.mem_append.mp hc' with h | h
        · exact h2 c h
        · simp only [List.map_cons, List.map_nil, List.mem_singleton] at h
          subst h
          exact hc.2.2
      · rw [litVal_append, h3]
        have e1 : numDigits ([n % 10].map digitChar) = 1 := by simp [numDigits, hc.1]
        have e2 : litVal 10 ([n % 10].map digitChar) = n % 10 := by
          simp [litVal, hc.1, hc.2.1, numDigits]
        rw [e1, e2]
        omega

theorem showNat_lit (n : Nat) : ∃ c ds, showNat n = c :: ds ∧ IsDigit 10 c ∧ (∀ x ∈ ds, IsDigit 10 x) ∧
    litVal 10 (c :: ds) = n := by
  obtain ⟨h1, h2, h3⟩ := showNat_fuel (n + 1) n (Nat.lt_succ_self n)
  have e : showNat n = ((natDigitsRev (n + 1) n).reverse).map digitChar := rfl
  rw [← e] at h1 h2 h3
  cases hs : showNat n with
  | nil => exact absurd hs h1
  | cons c ds =>
    rw [hs] at h2 h3
    exact ⟨c, ds, rfl, h2 c (by simp), fun x hx => h2 x (by simp [hx]), h3⟩

theorem showInt_lit (i : Int) : IntLit (showInt i) i := by
  obtain ⟨c, ds, h1, h2, h3, h4⟩ := showNat_lit i.natAbs
  unfold showInt
  split
  · exact ⟨['-'], -1, [], 10, c, ds, .minus, .dec, h2, fun x hx => Or.inr (h3 x hx), by simp [h1],
      by rw [h4]; omega⟩
  · exact ⟨[], 1, [], 10, c, ds, .none, .dec, h2, fun x hx => Or.inr (h3 x hx), by simp [h1],
      by rw [h4]; omega⟩

/-! ### Floats -/

theorem F64.isInf_cases {x : F64} (h : x.isInf = true) : x = .inf ∨ x = .negInf := by
  obtain ⟨⟨b, hb⟩⟩ := x
  simp only [F64.isInf, F64.expo, F64.mant, Bool.and_eq_true, beq_iff_eq] at h
  have : b = 0x7FF0000000000000 ∨ b = 0xFFF0000000000000 := by omega
  rcases this with rfl | rfl
  · exact Or.inl rfl
  · exact Or.inr rfl

theorem F64.feq_inf {x : F64} : x.feq .inf = true ↔ x = .inf := by
  constructor
  · intro h
    unfold F64.feq at h
    have h1 : F64.inf.isNan = false := by decide
    have h2 : F64.inf.isInf = true := by decide
    have h3 : F64.inf.neg = false := by decide
    rw [h1, h2, h3] at h
    simp only [Bool.or_false, Bool.or_true, if_true, Bool.and_true] at h
    split at h
    · cases h
    · simp only [Bool.and_eq_true, beq_iff_eq] at h
      rcases F64.isInf_cases h.1 with rfl | rfl
      · rfl
      · exact absurd h.2 (by decide)
  · rintro rfl; decide

theorem F64.feq_negInf {x : F64} : x.feq .negInf = true ↔ x = .negInf := by
  constructor
  · intro h
    unfold F64.feq at h
    have h1 : F64.negInf.isNan = false := by decide
    have h2 : F64.negInf.isInf = true := by decide
    have h3 : F64.negInf.neg = true := by decide
    rw [h1, h2, h3] at h
    simp only [Bool.or_false, Bool.or_true, if_true, Bool.and_true] at h
    split at h
    · cases h
    · simp only [Bool.and_eq_true, beq_iff_eq] at h
      rcases F64.isInf_cases h.1 with rfl | rfl
      · exact absurd h.2 (by decide)
      · rfl
  · rintro rfl; decide

theorem F64.finite_of {x : F64} (h1 : x.feq .inf = false) (h2 : x.feq .negInf = false)
    (h3 : x.isNan = false) : x.isFinite = true := by
  have n1 : x ≠ .inf := fun e => by rw [F64.feq_inf.mpr e] at h1; cases h1
  have n2 : x ≠ .negInf := fun e => by rw [F64.feq_negInf.mpr e] at h2; cases h2
  cases hi : x.isInf with
  | true => rcases F64.isInf_cases hi with e | e; exact absurd e n1; exact absurd e n2
  | false =>
    unfold F64.isFinite
    unfold F64.isInf at hi
    unfold F64.isNan at h3
    cases he : x.expo == 2047 with
    | false => simp_all [bne]
    | true =>
      rw [he] at hi h3
      cases hm : x.mant == 0 <;> simp_all [bne]

theorem SmallDigits.head {ds : Str} (h : SmallDigits ds) :
    ∃ c ds', ds = c :: ds' ∧ Digits isDecDigit c ds' := by
  obtain ⟨h1, h2, h3⟩ := h
  cases ds with
  | nil => exact absurd rfl h1
  | cons c ds' =>
    exact ⟨c, ds', rfl, isDigit_iff.1.mp (h3 c (by simp)), fun x hx => by
      simp [isGrp, isDigit_iff.1.mp (h3 x (by simp [hx]))]⟩

theorem litVal_lt {ds : Str} (h : ∀ c ∈ ds, IsDigit 10 c) : litVal 10 ds < 10 ^ ds.length := by
  induction ds with
  | nil => simp [litVal]
  | cons c ds ih =>
    have ih := ih fun x hx => h x (by simp [hx])
    obtain ⟨d, hd, hlt⟩ := h c (by simp)
    have hu : c ≠ '_' := by
      rintro rfl
      have hz : digit '_' = none := by decide
      rw [hz] at hd
      cases hd
    have hn : numDigits ds ≤ ds.length := by
      unfold numDigits; exact List.length_filter_le _ _
    unfold litVal
    rw [if_neg hu, hd]
    have hp : 10 ^ numDigits ds ≤ 10 ^ ds.length := Nat.pow_le_pow_right (by decide) hn
    simp only [Option.getD_some, List.length_cons]
    have : d * 10 ^ numDigits ds ≤ 9 * 10 ^ ds.length := Nat.mul_le_mul (by omega) hp
    rw [Nat.pow_succ]
    omega

theorem SmallDigits.bound {ds : Str} (h : SmallDigits ds) : (litVal 10 ds : Int) ≤ i128Max := by
  have h1 := litVal_lt h.2.2
  have h2 : 10 ^ ds.length ≤ 10 ^ 38 := Nat.pow_le_pow_right (by decide) h.2.1
  have : litVal 10 ds < 10 ^ 38 := Nat.lt_of_lt_of_le h1 h2
  unfold i128Max
  omega

theorem SmallDigits.read {ds r : Str} (h : SmallDigits ds)
    (hr : ∀ x q, r = x :: q → isGrp isDecDigit x = false) : ∃ x : I128, udecimal (ds ++ r) = .ok x r := by
  have hb := SmallDigits.bound h
  obtain ⟨c, ds', rfl, hd⟩ := SmallDigits.head h
  obtain ⟨x, hx, _⟩ := (reads_udecimal hd hr).1 hb
  exact ⟨x, hx⟩

theorem SmallDigits.readSigned {sg ds r : Str} (hs : sg = [] ∨ sg = ['-']) (h : SmallDigits ds)
    (hr : ∀ x q, r = x :: q → isGrp isDecDigit x = false) :
    ∃ x : I128, decimal (sg ++ (ds ++ r)) = .ok x r := by
  have hb := SmallDigits.bound h
  obtain ⟨c, ds', rfl, hd⟩ := SmallDigits.head h
  obtain ⟨x, hx, hv⟩ := (reads_udecimal hd hr).1 hb
  have hf := dec_facts (hex_of_dec hd.1)
  have hs' : ∃ k, Sign sg k := by
    rcases hs with rfl | rfl
    · exact ⟨1, .none⟩
    · exact ⟨-1, .minus⟩
  obtain ⟨k, hk⟩ := hs'
  obtain ⟨b, hsig, hb'⟩ := signum_sign hk (c := c) (q := ds' ++ r) hf.1 hf.2.1
  obtain ⟨y, hy, _⟩ := signedP_ok hsig hb' hk.cases hx hv
  exact ⟨y, hy⟩

section
variable [FloatIO]

theorem float_forward {t r : Str} (h : FloatShape t) (hr : Ends r) :
    floatValue (t ++ r) = .ok (.float (FloatIO.parse t)) r := by
  obtain ⟨sg, ip, fp, ex, hsg, hip, hfp, hex, hne, rfl⟩ := h
  have hrs := hr.stop.grp (fun _ => hex_of_dec) (f := isDecDigit)
  have hstop : ∀ x q, r = x :: q → x ≠ '.' ∧ x ≠ 'e' ∧ x ≠ 'E' := by
    intro x q e
    have := hr.stop x q e
    refine ⟨?_, ?_, ?_⟩ <;> rintro rfl <;> exact absurd this (by decide)
  have key : (floatExp <+> floatFrac) ((sg ++ ip ++ fp ++ ex) ++ r) = .ok () r := by
    have e0 : (sg ++ ip ++ fp ++ ex) ++ r = sg ++ (ip ++ (fp ++ (ex ++ r))) := by simp
    rw [e0]
    -- what follows each part is not a digit
    have g1 : ∀ x q, ex ++ r = x :: q → isGrp isDecDigit x = false := by
      rcases hex with rfl | ⟨es, ds, _, _, rfl⟩
      · exact hrs
      · rintro x q ⟨⟩; decide
    have g2 : ∀ x q, fp ++ (ex ++ r) = x :: q → isGrp isDecDigit x = false := by
      rcases hfp with rfl | ⟨ds, _, rfl⟩
      · exact g1
      · rintro x q ⟨⟩; decide
    obtain ⟨x, hx⟩ := SmallDigits.readSigned hsg hip g2
    rcases hex with rfl | ⟨es, ds, hes, hds, rfl⟩
    · -- no exponent, so a fraction
      rcases hfp with rfl | ⟨ds, hds, rfl⟩
      · simp at hne
      · obtain ⟨y, hy⟩ := SmallDigits.read hds (r := r) hrs
        have o : opt (do lit ['.']; cutErr udecimal : P I128) ('.' :: (ds ++ r)) = .ok (some y) r :=
          opt_some (by rw [bind_eq (lit_one _ _)]; exact cutErr_eq hy)
        have hb : floatExp (sg ++ (ip ++ ('.' :: ds ++ ([] ++ r)))) = .back := by
          unfold floatExp
          rw [bind_eq hx]
          simp only [List.nil_append, List.cons_append]
          rw [bind_eq o]
          apply bind_back
          apply satisfy_back.mpr
          intro c q e
          have := hstop c q e
          simp [this.2.1, this.2.2]
        rw [alt_right hb]
        unfold floatFrac
        rw [bind_eq hx]
        simp only [List.nil_append, List.cons_append]
        rw [bind_eq (lit_one _ _)]
        exact void_eq (cutErr_eq hy)
    · apply alt_left
      unfold floatExp
      rw [bind_eq hx]
      have o : ∃ y, opt (do lit ['.']; cutErr udecimal : P I128) (fp ++ ('e' :: (es ++ ds) ++ r)) =
          .ok y ('e' :: (es ++ ds) ++ r) := by
        rcases hfp with rfl | ⟨fs, hfs, rfl⟩
        · exact ⟨none, opt_none (bind_back (lit_cons_ne (by decide)))⟩
        · obtain ⟨y, hy⟩ := SmallDigits.read hfs (r := 'e' :: (es ++ ds) ++ r) g1
          refine ⟨some y, opt_some ?_⟩
          rw [List.cons_append, bind_eq (lit_one _ _)]
          exact cutErr_eq hy
      obtain ⟨y, hy⟩ := o
      rw [bind_eq hy, List.cons_append, bind_eq (satisfy_eq (by decide))]
      obtain ⟨z, hz⟩ := SmallDigits.read hds (r := r) hrs
      have o2 : ∃ w, opt (satisfy fun c => c == '-' || c == '+') (es ++ ds ++ r) = .ok w (ds ++ r) := by
        rcases hes with rfl | rfl
        · refine ⟨none, opt_none (satisfy_back.mpr ?_)⟩
          obtain ⟨c, ds', rfl, hd⟩ := SmallDigits.head hds
          rintro _ _ ⟨⟩
          have := dec_facts (hex_of_dec hd.1)
          simp [this.1, this.2.1]
        · exact ⟨some '-', opt_some (satisfy_eq (by decide))⟩
      obtain ⟨w, hw⟩ := o2
      rw [bind_eq hw]
      exact void_eq (cutErr_eq hz)
  have hd : dropUnderscores (sg ++ ip ++ fp ++ ex) = sg ++ ip ++ fp ++ ex := by
    have sd : ∀ ds, SmallDigits ds → ∀ c ∈ ds, c ≠ '_' := by
      rintro ds hds c hc rfl
      have := isDigit_iff.1.mp (hds.2.2 _ hc)
      exact absurd this (by decide)
    unfold dropUnderscores
    rw [List.filter_eq_self]
    intro c hc
    have : c ≠ '_' := by
      simp only [List.mem_append] at hc
      rcases hc with ((hc | hc) | hc) | hc
      · rcases hsg with rfl | rfl
        · cases hc
        · rintro rfl; exact absurd hc (by decide)
      · exact sd _ hip c hc
      · rcases hfp with rfl | ⟨ds, hds, rfl⟩
        · cases hc
        · rcases List.mem_cons.mp hc with rfl | hc
          · decide
          · exact sd _ hds c hc
      · rcases hex with rfl | ⟨es, ds, hes, hds, rfl⟩
        · cases hc
        · rcases List.mem_cons.mp hc with rfl | hc
          · decide
          · rcases List.mem_append.mp hc with hc | hc
            · rcases hes with rfl | rfl
              · cases hc
              · rintro rfl; exact absurd hc (by decide)
            · exact sd _ hds c hc
    simpa using this
  unfold floatValue
  rw [bind_eq (takeP_eq key), bind_eq hr.check, hd]
  rfl

omit [FloatIO] in
theorem floatShape_numberLike {t r : Str} (h : FloatShape t) : NumberLike (t ++ r) := by
  obtain ⟨sg, ip, fp, ex, hsg, hip, hfp, hex, hne, rfl⟩ := h
  have h3 := hip.2.2
  obtain ⟨c, ds', rfl, hd⟩ := SmallDigits.head hip
  have hs' : ∃ k, Sign sg k := by
    rcases hsg with rfl | rfl
    · exact ⟨1, .none⟩
    · exact ⟨-1, .minus⟩
  obtain ⟨k, hk⟩ := hs'
  exact ⟨sg, k, [], c, ds' ++ fp ++ ex ++ r, hk, Or.inl rfl, h3 c (by simp), by simp⟩

theorem valueBody_float {t r : Str} (h : FloatShape t) (hr : Ends r) :
    valueBody (t ++ r) = .ok (.float (FloatIO.parse t)) r := by
  rw [valueBody_num (floatShape_numberLike h)]
  apply alt_left
  unfold number
  exact alt_left (float_forward h hr)

/-! ### Keywords -/

omit [FloatIO] in
theorem keyword_true (r : Str) : keyword ("#true".toList ++ r) = .ok (.bool true) r := rfl
omit [FloatIO] in
theorem keyword_false (r : Str) : keyword ("#false".toList ++ r) = .ok (.bool false) r := rfl
omit [FloatIO] in
theorem keyword_null (r : Str) : keyword ("#null".toList ++ r) = .ok .null r := rfl
omit [FloatIO] in
theorem keyword_nan (r : Str) : keyword ("#nan".toList ++ r) = .ok (.float .nan) r := rfl
omit [FloatIO] in
theorem keyword_inf (r : Str) : keyword ("#inf".toList ++ r) = .ok (.float .inf) r := rfl
omit [FloatIO] in
theorem keyword_negInf (r : Str) : keyword ("#-inf".toList ++ r) = .ok (.float .negInf) r := rfl

omit [FloatIO] in
/-- A `#` that starts neither a raw string nor a longer run of hashes is not a
string. -/
theorem stringP_hash {c : Char} {q : Str} (h1 : c ≠ '#') (h2 : c ≠ '"') : stringP ('#' :: c :: q) = .back := by
  unfold stringP
  rw [alt_right (bind_back (identString_back (by rintro _ _ ⟨⟩; decide)))]
  have hr : rawString ('#' :: c :: q) = .back := by
    unfold rawString
    have : takeP (rep1 (lit ['#'])) ('#' :: c :: q) = .ok ['#'] (c :: q) :=
      takeP_eq (t := ['#']) (r := c :: q) (rep1_eq (lit_one _ _) (rep0_nil (lit_cons_ne (Ne.symm h1))))
    rw [bind_eq this]
    apply bind_back
    have ht : lit tripleQuote (c :: q) = .back := lit_cons_ne (Ne.symm h2)
    rw [alt_right (bind_back ht)]
    exact bind_back (lit_cons_ne (Ne.symm h2))
  rw [alt_right (bind_back hr)]
  exact bind_back (quotedString_back (by rintro q ⟨⟩))

/-! ### Strings -/

omit [FloatIO] in
theorem isPlainIdent_ident {s : Str} (h : isPlainIdent s = true) : ∀ c ∈ s, IdentChar c := by
  unfold isPlainIdent at h
  simp only [Bool.and_eq_true, Bool.not_eq_true', List.any_eq_false] at h
  intro c hc
  apply isDisallowedIdentChar_iff.mp
  simpa using h.1.1.1 c hc

omit [FloatIO] in
/-- A plain string that is not a valid unquoted string looks like `+.5`. -/
theorem isPlainIdent_bare {s : Str} (h : isPlainIdent s = true) (hne : s ≠ []) :
    Bare s ∨ (NumberLike s ∧ SignedPoint s) := by
  have hid := isPlainIdent_ident h
  unfold isPlainIdent at h
  simp only [Bool.and_eq_true, Bool.not_eq_true'] at h
  obtain ⟨⟨⟨_, h2⟩, h3⟩, h4⟩ := h
  by_cases hn : NumberLike s
  · right
    refine ⟨hn, ?_, hid⟩
    obtain ⟨sg, k, pt, d, t, hs, hp, hd, rfl⟩ := hn
    have hd' := isDigit_iff.1.mp hd
    rcases sign_char hs with rfl | ⟨g, rfl, hg⟩
    · rcases hp with rfl | rfl
      · simp [startsWithDigit, hd'] at h2
      · simp [looksNumeric, hd'] at h3
    · rcases hp with rfl | rfl
      · rcases hg with rfl | rfl <;> simp [looksNumeric, hd'] at h3
      · exact ⟨g, d, t, hg, hd, by simp⟩
  · left
    refine ⟨hne, hid, hn, fun hm => ?_⟩
    exfalso
    have : reservedWords.contains s = true := by
      simp only [List.contains_eq_mem, decide_eq_true_eq]
      simp only [reserved, List.mem_cons, List.not_mem_nil, or_false] at hm
      simp only [reservedWords, List.mem_cons, List.not_mem_nil, or_false]
      rcases hm with h | h | h | h | h | h <;> simp [h]
    rw [this] at h4
    cases h4

omit [FloatIO] in
theorem signedPoint_numberLike {s : Str} (h : SignedPoint s) : NumberLike s := by
  obtain ⟨⟨g, d, t, hg, hd, rfl⟩, _⟩ := h
  rcases hg with rfl | rfl
  · exact ⟨['+'], 1, ['.'], d, t, .plus, Or.inr rfl, hd, rfl⟩
  · exact ⟨['-'], -1, ['.'], d, t, .minus, Or.inr rfl, hd, rfl⟩

omit [FloatIO] in
theorem numberLike_append {s : Str} (h : NumberLike s) (r : Str) : NumberLike (s ++ r) := by
  obtain ⟨sg, k, p, d, t, h1, h2, h3, rfl⟩ := h
  exact ⟨sg, k, p, d, t ++ r, h1, h2, h3, by simp⟩

omit [FloatIO] in
theorem newline_clean {c : Char} (h : Newline c) (hc : CleanChar c) : c = '\n' ∨ c = '\r' ∨ c = Char.ofNat 0x0C := by
  unfold Newline newlineCodes at h
  have := hc.1
  unfold rawNewlines at this
  simp only [List.mem_cons, List.not_mem_nil, or_false, not_or] at h this
  rcases h with h | h | h | h | h | h | h
  · exact Or.inl (Char.eq_of_toNat h)
  · exact absurd h this.1
  · exact Or.inr (Or.inr (Char.eq_of_toNat h))
  · exact Or.inr (Or.inl (Char.eq_of_toNat h))
  · exact absurd h this.2.1
  · exact absurd h this.2.2.1
  · exact absurd h this.2.2.2

omit [FloatIO] in
/-- How one character is written between quotes. -/
theorem escapeChar_cases (c : Char) :
    (∃ e, escapeChar c = ['\\', e] ∧ (e, c) ∈ escapes) ∨
    (escapeChar c = [c] ∧ c ≠ '\\' ∧ c ≠ '"' ∧ c ≠ '\n' ∧ c ≠ '\r' ∧ c ≠ '\t' ∧ c ≠ Char.ofNat 0x08 ∧
      c ≠ Char.ofNat 0x0C) := by
  unfold escapeChar
  split
  · rename_i h
    rcases h with rfl | rfl
    · exact Or.inl ⟨_, rfl, by decide⟩
    · exact Or.inl ⟨_, rfl, by decide⟩
  · rename_i h
    split
    · rename_i h; subst h; exact Or.inl ⟨_, rfl, by decide⟩
    · split
      · rename_i h; subst h; exact Or.inl ⟨_, rfl, by decide⟩
      · split
        · rename_i h; subst h; exact Or.inl ⟨_, rfl, by decide⟩
        · split
          · rename_i h; subst h; exact Or.inl ⟨_, rfl, by decide⟩
          · split
            · rename_i h; subst h; exact Or.inl ⟨_, rfl, by decide⟩
            · right
              have h' := not_or.mp h
              exact ⟨rfl, h'.1, h'.2, by assumption, by assumption, by assumption, by assumption,
                by assumption⟩

omit [FloatIO] in
theorem quoted_escape {s : Str} (h : ∀ c ∈ s, CleanChar c) : Quoted (s.flatMap escapeChar) s := by
  induction s with
  | nil => exact .nil
  | cons c s ih =>
    have ih := ih fun x hx => h x (by simp [hx])
    have hc := h c (by simp)
    rw [List.flatMap_cons]
    rcases escapeChar_cases c with ⟨e, he, hm⟩ | ⟨he, h1, h2, h3, h4, h5, h6, h7⟩
    · rw [he]
      exact .escape hm ih
    · rw [he]
      refine .plain h1 h2 ?_ ?_ ih
      · intro hn
        rcases newline_clean hn hc with h | h | h
        · exact h3 h
        · exact h4 h
        · exact h7 h
      · intro hd
        exact h6 (hc.2 hd)

omit [FloatIO] in
theorem ident_clean {c : Char} (h : IdentChar c) : CleanChar c := by
  refine ⟨fun hm => h.2.1 ?_, fun hd => absurd hd h.2.2.1⟩
  unfold Newline newlineCodes
  unfold rawNewlines at hm
  simp only [List.mem_cons, List.not_mem_nil, or_false] at hm ⊢
  rcases hm with h | h | h | h <;> simp [h]

omit [FloatIO] in
/-- Printed strings are read back. -/
theorem stringP_write {s r : Str} (h : Writable s) (hr : Ends r) :
    stringP (writeString s ++ r) = .ok s r := by
  unfold writeString
  split
  · rename_i hp
    simp only [Bool.and_eq_true, Bool.not_eq_true', List.isEmpty_eq_false_iff] at hp
    rcases isPlainIdent_bare hp.2 hp.1 with hb | ⟨_, hb⟩
    · exact stringP_bare hb hr
    · exact absurd hb h.2
  · have := stringP_quoted (quoted_escape h.1) hr
    simpa using this

omit [FloatIO] in
theorem quoted_head {t v r : Str} (h : Quoted t v) : ∀ q, t ++ r ≠ '"' :: q ∨ t = [] := by
  intro q
  cases h with
  | nil => exact Or.inr rfl
  | plain h1 h2 h3 h4 h => left; rintro ⟨⟩; exact h2 rfl
  | escape h1 h => left; rintro ⟨⟩
  | unicode h1 h2 h3 h4 h => left; rintro ⟨⟩
  | space h1 h2 h3 h => left; rintro ⟨⟩

omit [FloatIO] in
/-- Reading what is printed between quotes only succeeds for clean characters, and
then gives them back. -/
theorem quoted_unescape : ∀ {s t v r y : Str}, Quoted t v → s.flatMap escapeChar ++ '"' :: y = t ++ '"' :: r →
    (∀ c ∈ s, CleanChar c) ∧ v = s ∧ r = y
  | [], t, v, r, y, h, e => by
    simp only [List.flatMap_nil, List.nil_append] at e
    rcases quoted_head (r := '"' :: r) h y with h' | rfl
    · exact absurd e.symm h'
    · cases h
      cases e
      exact ⟨by simp, rfl, rfl⟩
  | c :: s, t, v, r, y, h, e => by
    rw [List.flatMap_cons, List.append_assoc] at e
    rcases escapeChar_cases c with ⟨x, he, hm⟩ | ⟨he, h1, h2, h3, h4, h5, h6, h7⟩
    · rw [he] at e
      have hx := escape_not_blank hm
      cases h with
      | nil => cases e
      | plain g1 g2 g3 g4 g => exact absurd (List.cons.inj e).1.symm g1
      | @escape x' c' t v g1 g =>
        simp only [List.cons_append, List.nil_append, List.cons.injEq, true_and] at e
        obtain ⟨rfl, e⟩ := e
        obtain ⟨i1, i2, i3⟩ := quoted_unescape g e
        have hcc : c' = c := by
          have : ∀ p ∈ escapes, ∀ p' ∈ escapes, p.1 = p'.1 → p.2 = p'.2 := by decide
          exact this _ g1 _ hm rfl
        subst hcc
        refine ⟨?_, by rw [i2], i3⟩
        intro y hy
        rcases List.mem_cons.mp hy with rfl | hy
        · have : ∀ p ∈ escapes, CleanChar p.2 := by decide
          exact this _ hm
        · exact i1 y hy
      | unicode g1 g2 g3 g4 g =>
        simp only [List.cons_append, List.nil_append, List.cons.injEq, true_and] at e
        exact absurd e.1 hx.2
      | @space w t v g1 g2 g3 g =>
        cases w with
        | nil => exact absurd rfl g1
        | cons y w =>
          simp only [List.cons_append, List.nil_append, List.cons.injEq, true_and] at e
          obtain ⟨rfl, _⟩ := e
          exact absurd (g2 _ (by simp)) hx.1
    · rw [he] at e
      simp only [List.cons_append, List.nil_append] at e
      cases h with
      | nil => cases e; exact absurd rfl h2
      | @plain c' t v g1 g2 g3 g4 g =>
        simp only [List.cons_append, List.cons.injEq] at e
        obtain ⟨rfl, e⟩ := e
        obtain ⟨i1, i2, i3⟩ := quoted_unescape g e
        refine ⟨?_, by rw [i2], i3⟩
        intro y hy
        rcases List.mem_cons.mp hy with rfl | hy
        · refine ⟨fun hm => g3 ?_, fun hd => absurd hd g4⟩
          unfold Newline newlineCodes
          unfold rawNewlines at hm
          simp only [List.mem_cons, List.not_mem_nil, or_false] at hm ⊢
          rcases hm with h | h | h | h <;> simp [h]
        · exact i1 y hy
      | escape g1 g => exact absurd (List.cons.inj e).1 h1
      | unicode g1 g2 g3 g4 g => exact absurd (List.cons.inj e).1 h1
      | space g1 g2 g3 g => exact absurd (List.cons.inj e).1 h1

omit [FloatIO] in
/-- Conversely, a printed string that is read at all is writable. -/
theorem stringP_write_inv {s v q y : Str} (h : stringP (writeString s ++ y) = .ok v q) : Writable s := by
  by_cases hs : s = []
  · subst hs
    refine ⟨by rintro _ ⟨⟩, ?_⟩
    rintro ⟨⟨g, d, t, _, _, e⟩, _⟩
    cases e
  unfold writeString at h
  split at h
  · rename_i hp
    simp only [Bool.and_eq_true, Bool.not_eq_true', List.isEmpty_eq_false_iff] at hp
    refine ⟨fun c hc => ident_clean (isPlainIdent_ident hp.2 c hc), fun hsp => ?_⟩
    rw [stringP_num (numberLike_append (signedPoint_numberLike hsp) y)] at h
    cases h
  · rename_i hp
    refine ⟨?_, fun hsp => ?_⟩
    · unfold stringP at h
      rw [List.cons_append, List.cons_append, List.append_assoc, List.cons_append, List.nil_append, alt_right (bind_back (identString_back (by rintro _ _ ⟨⟩; decide))),
        alt_right (bind_back (rawString_back (by rintro q ⟨⟩)))] at h
      rw [bind_ok] at h
      obtain ⟨v', r', h1, _⟩ := h
      unfold quotedString at h1
      have hnt : lit tripleQuote ('"' :: (s.flatMap escapeChar ++ '"' :: y)) = .back := by
        apply lit_back.mpr
        intro r e
        unfold tripleQuote at e
        cases s with
        | nil => exact hs rfl
        | cons c s =>
          rw [List.flatMap_cons] at e
          rcases escapeChar_cases c with ⟨x, he, hm⟩ | ⟨he, h1, h2, _⟩
          · rw [he] at e; simp at e
          · rw [he] at e
            simp only [List.cons_append, List.nil_append, List.cons.injEq, true_and] at e
            exact h2 e.1
      have hml : ((do lit tripleQuote; cutErr newline; return true) <+> (do lit ['"']; return false) : P Bool)
          ('"' :: (s.flatMap escapeChar ++ '"' :: y)) = .ok false (s.flatMap escapeChar ++ '"' :: y) := by
        rw [alt_right (bind_back hnt), bind_eq (lit_one _ _)]
        rfl
      rw [bind_eq hml] at h1
      simp only [Bool.false_eq_true, if_false] at h1
      rw [bind_ok] at h1
      obtain ⟨b, r1, h2, _⟩ := h1
      obtain ⟨t, q', e1, rfl, hq⟩ := slBody_inv h2
      exact (quoted_unescape hq e1).1
    · apply hp
      have hne : s ≠ [] := by
        obtain ⟨⟨g, d, t, _, _, rfl⟩, _⟩ := hsp
        simp
      have hd : ∀ c ∈ s, isDisallowedIdentChar c = false := fun c hc =>
        isDisallowedIdentChar_iff.mpr (hsp.2 c hc)
      obtain ⟨⟨g, d, t, hg, hdg, rfl⟩, _⟩ := hsp
      have ha : (g :: '.' :: d :: t).any isDisallowedIdentChar = false := by
        rw [List.any_eq_false]
        intro c hc
        simp [hd c hc]
      have hr : reservedWords.contains (g :: '.' :: d :: t) = false := by
        rcases hg with rfl | rfl <;> simp [reservedWords]
      unfold isPlainIdent
      rw [ha, hr]
      rcases hg with rfl | rfl <;> simp [startsWithDigit, looksNumeric] <;> decide

/-! ### Values -/

theorem i128_natAbs {i : I128} (h : i.val ≠ i128Min) : (i.val.natAbs : Int) ≤ i128Max := by
  have := i.property
  unfold i128Min i128Max at *
  omega

/-- A printed value that is not a string. -/
theorem valueBody_write [LawfulFloatIO] {v : Value} {r : Str} (h : WritableValue v) (hr : Ends r)
    (hs : ∀ s, v ≠ .string s) :
    valueBody (v.display ++ r) = .ok (canonValue v) r ∧ stringP (v.display ++ r) = .back ∧
      (∀ q, v.display ++ r ≠ '(' :: q) ∧ Solid (v.display ++ r) ∧ v.display ≠ [] := by
  have kw : ∀ {t : Str} {c : Char} {x : Value}, keyword ('#' :: c :: t ++ r) = .ok x r → c ≠ '#' → c ≠ '"' →
      valueBody ('#' :: c :: t ++ r) = .ok x r ∧ stringP ('#' :: c :: t ++ r) = .back ∧
      (∀ q, '#' :: c :: t ++ r ≠ '(' :: q) ∧ Solid ('#' :: c :: t ++ r) ∧ '#' :: c :: t ≠ [] := by
    intro t c x hk h1 h2
    refine ⟨alt_left hk, stringP_hash h1 h2, by rintro q ⟨⟩, ?_, by simp⟩
    rintro _ _ ⟨⟩
    decide
  have num : ∀ {t : Str} {x : Value}, valueBody (t ++ r) = .ok x r → NumberLike (t ++ r) → t ≠ [] →
      valueBody (t ++ r) = .ok x r ∧ stringP (t ++ r) = .back ∧ (∀ q, t ++ r ≠ '(' :: q) ∧ Solid (t ++ r) ∧
        t ≠ [] := by
    intro t x hv hn hne
    refine ⟨hv, stringP_num hn, ?_, ?_, hne⟩
    all_goals
      obtain ⟨c, q, e, hc⟩ := numberLike_head hn
      have hf := numberLike_head_facts hc
      rw [e]
    · rintro q ⟨⟩; exact hf.2.2.1 rfl
    · rintro _ _ ⟨⟩
      exact ⟨fun hb => hb.elim hf.2.2.2.2.2.1 hf.2.2.2.2.2.2.1, hf.2.2.2.1, hf.2.2.2.2.1⟩
  cases v with
  | string s => exact absurd rfl (hs s)
  | integer i =>
    have hi := showInt_lit i.val
    obtain ⟨j, h1, h2⟩ := valueBody_int hi hr (i128_natAbs h)
    have : j = i := Subtype.ext h2
    subst this
    refine num h1 (intLit_numberLike hi) ?_
    obtain ⟨c, ds, e, _⟩ := showNat_lit j.val.natAbs
    show showInt j.val ≠ []
    unfold showInt
    split
    · simp
    · rw [e]; simp
  | float x =>
    show valueBody ((if x.feq F64.inf then "#inf".toList
      else if x.feq F64.negInf then "#-inf".toList
      else if x.isNan then "#nan".toList
      else FloatIO.showFinite x) ++ r) = _ ∧ stringP ((if x.feq F64.inf then "#inf".toList
      else if x.feq F64.negInf then "#-inf".toList
      else if x.isNan then "#nan".toList
      else FloatIO.showFinite x) ++ r) = _ ∧ (∀ q, (if x.feq F64.inf then "#inf".toList
      else if x.feq F64.negInf then "#-inf".toList
      else if x.isNan then "#nan".toList
      else FloatIO.showFinite x) ++ r ≠ _) ∧ Solid ((if x.feq F64.inf then "#inf".toList
      else if x.feq F64.negInf then "#-inf".toList
      else if x.isNan then "#nan".toList
      else FloatIO.showFinite x) ++ r) ∧ (if x.feq F64.inf then "#inf".toList
      else if x.feq F64.negInf then "#-inf".toList
      else if x.isNan then "#nan".toList
      else FloatIO.showFinite x) ≠ []
    split
    · rename_i hi
      rw [F64.feq_inf] at hi
      subst hi
      exact kw (keyword_inf r) (by decide) (by decide)
    · rename_i hi
      split
      · rename_i hi
        rw [F64.feq_negInf] at hi
        subst hi
        exact kw (keyword_negInf r) (by decide) (by decide)
      · rename_i hj
        split
        · rename_i hn
          have : canonValue (.float x) = .float .nan := by simp [canonValue, hn]
          rw [this]
          exact kw (keyword_nan r) (by decide) (by decide)
        · rename_i hn
          have : canonValue (.float x) = .float x := by simp [canonValue, hn]
          rw [this]
          have hf := F64.finite_of (by simpa using hi) (by simpa using hj) (by simpa using hn)
          have h1 := valueBody_float (LawfulFloatIO.shape x hf) hr
          rw [LawfulFloatIO.parse_show x hf] at h1
          refine num h1 (floatShape_numberLike (LawfulFloatIO.shape x hf)) ?_
          obtain ⟨sg, ip, fp, ex, _, hip, _, _, _, e⟩ := LawfulFloatIO.shape x hf
          rw [e]
          intro e'
          simp only [List.append_eq_nil_iff] at e'
          exact hip.1 e'.1.1.2
  | bool b =>
    cases b
    · exact kw (keyword_false r) (by decide) (by decide)
    · exact kw (keyword_true r) (by decide) (by decide)
  | null => exact kw (keyword_null r) (by decide) (by decide)

end

end Kdl
