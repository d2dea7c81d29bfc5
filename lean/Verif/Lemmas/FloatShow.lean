import Verif.Lemmas.FloatRead
/-
Writing floats.
-/

namespace Kdl
open Spec

/-! ### Printed numbers -/

theorem showNat_digits (n : Nat) : (∀ x ∈ showNat n, IsDigit 10 x) ∧ litVal 10 (showNat n) = n ∧ showNat n ≠ [] := by
  obtain ⟨c, ds, h1, h2, h3, h4⟩ := showNat_lit n
  rw [h1]
  refine ⟨?_, h4, by simp⟩
  intro x hx
  rcases List.mem_cons.mp hx with rfl | hx
  · exact h2
  · exact h3 x hx

theorem digit_ne_us {c : Char} (h : IsDigit 10 c) : c ≠ '_' := (dec_ne (isDigit_iff.1.mp h)).2.2.2.2.2

theorem numDigits_digits {ds : Str} (h : ∀ x ∈ ds, IsDigit 10 x) : numDigits ds = ds.length := by
  unfold numDigits
  rw [List.filter_eq_self.mpr]
  intro x hx
  simpa using digit_ne_us (h x hx)

theorem digitGroup_digits {ds : Str} (h : ∀ x ∈ ds, IsDigit 10 x) (hne : ds ≠ []) : DigitGroup ds := by
  cases ds with
  | nil => exact absurd rfl hne
  | cons c t => exact ⟨c, t, rfl, h c (by simp), fun x hx => Or.inr (h x (by simp [hx]))⟩

theorem isDigit_zero : IsDigit 10 '0' := isDigit_iff.1.mpr (by decide)

theorem litVal_zeros : ∀ (k : Nat), litVal 10 (List.replicate k '0') = 0
  | 0 => rfl
  | k + 1 => by
    have d0 : digit '0' = some 0 := by decide
    rw [List.replicate_succ, litVal, litVal_zeros k, d0]
    simp

theorem showNat_length_le {n k : Nat} (h : n < 10 ^ k) (hk : 0 < k) : (showNat n).length ≤ k := by
  rcases Nat.eq_zero_or_pos n with rfl | hn
  · have : (showNat 0).length = 1 := by decide
    omega
  · obtain ⟨h1, _, _⟩ := showNat_bounds hn
    have := ten_pow_lt (Nat.lt_of_le_of_lt h1 h)
    omega

/-! ### Size of the digits -/

/-- Size of the digits of a magnitude and of their exponent. -/
theorem shortest_size {v b : Nat} (hb : b ≤ infBits) (h0 : 0 < v) (hv : magOf b = v) {c : Nat} {e : Int}
    (h : shortest v b = (c, e)) :
    0 < c ∧ c < 10 ^ 17 ∧ (decLen v : Int) - 417 ≤ e ∧ e + (showNat c).length ≤ (decLen v : Int) - 399 := by
  obtain ⟨n, j, c', e', n1, n2, hs, c0, c1, _, hp, l1, l2, _⟩ := shortest_spec hb h0 hv
  rw [h] at hs
  cases hs
  obtain ⟨p1, _, _⟩ := pickDigits_some hp
  unfold decShift at p1
  obtain ⟨s1, s2, s3⟩ := showNat_bounds c0
  have e1 : 10 ^ ((showNat c).length - 1 + j) < 10 ^ (n + 1) := by
    calc 10 ^ ((showNat c).length - 1 + j) = 10 ^ ((showNat c).length - 1) * 10 ^ j := Nat.pow_add _ _ _
      _ ≤ c * 10 ^ j := Nat.mul_le_mul_right _ s1
      _ ≤ 10 ^ n := l2
      _ < 10 ^ (n + 1) := Nat.pow_lt_pow_right (by decide) (by omega)
  have := ten_pow_lt e1
  refine ⟨c0, ?_, by omega, by omega⟩
  exact Nat.lt_of_lt_of_le c1 (Nat.pow_le_pow_right (by decide) n2)

theorem decLen_le {v k : Nat} (h0 : 0 < v) (h : v < 10 ^ k * 2 ^ 1074) : decLen v ≤ k + 400 := by
  obtain ⟨h1, _, _⟩ := decLen_bounds h0
  have h2 : v * 10 ^ 400 < 10 ^ (k + 400) * 2 ^ 1074 := by
    calc v * 10 ^ 400 < 10 ^ k * 2 ^ 1074 * 10 ^ 400 := Nat.mul_lt_mul_of_pos_right h (ten_pow_pos _)
      _ = 10 ^ (k + 400) * 2 ^ 1074 := by rw [Nat.pow_add]; ring
  have h3 := Nat.lt_of_mul_lt_mul_right (Nat.lt_of_le_of_lt h1 h2)
  have := ten_pow_lt h3
  omega

theorem le_decLen {v k : Nat} (h0 : 0 < v) (hk : k ≤ 400) (h : 2 ^ 1074 ≤ v * 10 ^ k) : 400 - k < decLen v := by
  obtain ⟨_, h2, _⟩ := decLen_bounds h0
  have h3 : 10 ^ (400 - k) * 2 ^ 1074 ≤ v * 10 ^ 400 := by
    calc 10 ^ (400 - k) * 2 ^ 1074 ≤ 10 ^ (400 - k) * (v * 10 ^ k) := Nat.mul_le_mul_left _ h
      _ = v * (10 ^ (400 - k) * 10 ^ k) := by ring
      _ = v * 10 ^ 400 := by rw [← Nat.pow_add, Nat.sub_add_cancel hk]
  exact ten_pow_lt (Nat.lt_of_mul_lt_mul_right (Nat.lt_of_le_of_lt h3 h2))

theorem magOf_finite {b : Nat} (h : b < infBits) : magOf b < 10 ^ 1024 * 2 ^ 1074 := by
  have h1 := magOf_lt h
  have e : infBits = 2046 * 2 ^ 52 + 2 ^ 52 := by decide
  have h2 : magOf infBits = 2 ^ 1024 * 2 ^ 1074 := by
    rw [e, magOf_high (Nat.le_refl _) (by decide), ← Nat.pow_add, ← Nat.pow_add]
  rw [h2] at h1
  refine Nat.lt_of_lt_of_le h1 (Nat.mul_le_mul_right _ (Nat.pow_le_pow_left (by decide) _))

theorem exp_threshold : 2 ^ 1074 ≤ magOf (decBits 1 (-4)) * 10 ^ 5 := by
  decide +kernel

/-! ### The literal that is printed -/

/-- Sign of a printed number. -/
def signText (neg : Bool) : Str := if neg then ['-'] else []

theorem signText_sign (neg : Bool) : ∃ k, Sign (signText neg) k := by
  cases neg
  · exact ⟨1, .none⟩
  · exact ⟨-1, .minus⟩

theorem signText_neg (neg : Bool) : (signText neg == ['-']) = neg := by cases neg <;> rfl

theorem showInt_eq (i : Int) : showInt i = signText (decide (i < 0)) ++ showNat i.natAbs := by
  unfold showInt signText
  by_cases h : i < 0 <;> simp [h]

/-- What is known of a printed literal. -/
structure Printed (neg : Bool) (t : Str) (c : Nat) (e : Int) (p : FloatNum) : Prop where
  text : signText neg ++ t = p.text
  ok : p.Ok
  plain : ∀ x ∈ p.text, x ≠ '_'
  shape : FloatShape p.text
  neg : p.neg = neg
  /-- the literal has zeros behind the digits, which its exponent makes up for -/
  value : ∃ j : Nat, p.coeff = c * 10 ^ j ∧ p.exponent = e - j

theorem plain_digits {ds : Str} (h : ∀ x ∈ ds, IsDigit 10 x) : ∀ x ∈ ds, x ≠ '_' := fun x hx => digit_ne_us (h x hx)

theorem signText_plain (neg : Bool) : ∀ x ∈ signText neg, x ≠ '_' := by
  cases neg
  · intro x hx; cases hx
  · intro x hx
    have : x = '-' := by simpa [signText] using hx
    rw [this]
    decide

/-- A literal with a fraction. -/
theorem printed_frac {neg : Bool} {ip fp : Str} {c : Nat} {e : Int} (hi : SmallDigits ip) (hf : SmallDigits fp)
    {j : Nat} (hc : litVal 10 (ip ++ fp) = c * 10 ^ j) (he : -(fp.length : Int) = e - j) :
    Printed neg (ip ++ '.' :: fp) c e ⟨signText neg, ip, some fp, none⟩ := by
  have hs : signText neg = [] ∨ signText neg = ['-'] := by cases neg <;> simp [signText]
  have ht : (FloatNum.mk (signText neg) ip (some fp) none).text = signText neg ++ (ip ++ '.' :: fp) := by
    simp [FloatNum.text, FloatNum.fracText, FloatNum.expText]
  refine ⟨ht.symm, ⟨signText_sign neg, digitGroup_digits hi.2.2 hi.1, ?_, ?_, Or.inl (by simp)⟩, ?_, ?_,
    signText_neg neg, j, hc, ?_⟩
  · rintro f ⟨⟩
    exact digitGroup_digits hf.2.2 hf.1
  · rintro x ⟨⟩
  · rw [ht]
    intro x hx
    rcases List.mem_append.mp hx with hx | hx
    · exact signText_plain neg x hx
    rcases List.mem_append.mp hx with hx | hx
    · exact plain_digits hi.2.2 x hx
    rcases List.mem_cons.mp hx with rfl | hx
    · decide
    · exact plain_digits hf.2.2 x hx
  · exact ⟨signText neg, ip, '.' :: fp, [], hs, hi, Or.inr ⟨fp, hf, rfl⟩, Or.inl rfl, Or.inl (by simp), by rw [ht]; simp⟩
  · simp only [FloatNum.exponent, FloatNum.expVal, Option.getD_some, numDigits_digits hf.2.2]
    omega

/-- A literal with an exponent. -/
theorem printed_exp {neg : Bool} {d : Char} {rest : Str} {c : Nat} {e : Int} (hd : IsDigit 10 d)
    (hr : ∀ x ∈ rest, IsDigit 10 x) (hlen : rest.length ≤ 37) (hc : litVal 10 (d :: rest) = c)
    (hE : (e + rest.length).natAbs < 10 ^ 38) :
    Printed neg ([d] ++ (if rest = [] then [] else '.' :: rest) ++ 'e' :: showInt (e + rest.length)) c e
      ⟨signText neg, [d], if rest = [] then none else some rest,
        some ⟨'e', signText (decide (e + rest.length < 0)), showNat (e + rest.length).natAbs⟩⟩ := by
  have hs : ∀ neg, signText neg = [] ∨ signText neg = ['-'] := by intro neg; cases neg <;> simp [signText]
  generalize hE' : e + (rest.length : Int) = E at *
  obtain ⟨n1, n2, n3⟩ := showNat_digits E.natAbs
  have ne : SmallDigits (showNat E.natAbs) := ⟨n3, showNat_length_le hE (by decide), n1⟩
  have hf : FloatNum.fracText (if rest = [] then none else some rest) = (if rest = [] then [] else '.' :: rest) := by
    split <;> rfl
  have hg : (if rest = [] then none else some rest : Option Str).getD [] = rest := by
    split
    · rename_i h; rw [h]; rfl
    · rfl
  have hi : SmallDigits [d] := ⟨by simp, by simp, fun x hx => by simp at hx; rw [hx]; exact hd⟩
  have ht : (FloatNum.mk (signText neg) [d] (if rest = [] then none else some rest)
      (some ⟨'e', signText (decide (E < 0)), showNat E.natAbs⟩)).text =
      signText neg ++ ([d] ++ (if rest = [] then [] else '.' :: rest) ++ 'e' :: showInt E) := by
    simp [FloatNum.text, hf, FloatNum.expText, showInt_eq]
  refine ⟨ht.symm, ⟨signText_sign neg, digitGroup_digits hi.2.2 hi.1, ?_, ?_, Or.inr (by simp)⟩, ?_, ?_,
    signText_neg neg, 0, ?_, ?_⟩
  · intro f hf
    simp only at hf
    split at hf
    · cases hf
    · cases hf
      exact digitGroup_digits hr (by assumption)
  · rintro x ⟨⟩
    exact ⟨Or.inl rfl, signText_sign _, digitGroup_digits n1 n3⟩
  · rw [ht]
    intro x hx
    rcases List.mem_append.mp hx with hx | hx
    · exact signText_plain neg x hx
    rcases List.mem_append.mp hx with hx | hx
    · rcases List.mem_append.mp hx with hx | hx
      · exact plain_digits hi.2.2 x hx
      · split at hx
        · cases hx
        · rcases List.mem_cons.mp hx with rfl | hx
          · decide
          · exact plain_digits hr x hx
    rcases List.mem_cons.mp hx with rfl | hx
    · decide
    · rw [showInt_eq] at hx
      rcases List.mem_append.mp hx with hx | hx
      · exact signText_plain _ x hx
      · exact plain_digits n1 x hx
  · refine ⟨signText neg, [d], if rest = [] then [] else '.' :: rest, 'e' :: showInt E, hs neg, hi, ?_,
      Or.inr ⟨signText (decide (E < 0)), showNat E.natAbs, hs _, ne, by rw [showInt_eq]⟩, Or.inr (by simp), by rw [ht]; simp⟩
    split
    · exact Or.inl rfl
    · rename_i h
      exact Or.inr ⟨rest, ⟨h, by omega, hr⟩, rfl⟩
  · simp only [FloatNum.coeff, hg, Nat.pow_zero, Nat.mul_one]
    exact hc
  · simp only [FloatNum.exponent, FloatNum.expVal, hg, numDigits_digits hr, n2]
    have : (signText (decide (E < 0)) = ['-']) ↔ E < 0 := by
      by_cases h : E < 0 <;> simp [signText, h]
    simp only [this]
    split <;> omega

/-- The text of the digits `c` times `10^e`. -/
theorem printed_point {neg : Bool} {c : Nat} {e : Int} (h1 : (showNat c).length ≤ 17)
    (h2 : e + (showNat c).length ≤ 38) (h3 : -38 ≤ e) : ∃ p, Printed neg (pointText (showNat c) e) c e p := by
  obtain ⟨n1, n2, n3⟩ := showNat_digits c
  have npos : 0 < (showNat c).length := List.length_pos_iff.mpr n3
  unfold pointText
  generalize showNat c = ds at *
  have hz : ∀ k, ∀ x ∈ List.replicate k '0', IsDigit 10 x := by
    intro k x hx
    rw [(List.mem_replicate.mp hx).2]
    exact isDigit_zero
  have mem2 : ∀ {a b : Str}, (∀ x ∈ a, IsDigit 10 x) → (∀ x ∈ b, IsDigit 10 x) → ∀ x ∈ a ++ b, IsDigit 10 x := by
    intro a b ha hb x hx
    rcases List.mem_append.mp hx with h | h
    · exact ha x h
    · exact hb x h
  split
  · rename_i he
    refine ⟨_, printed_frac (ip := ds ++ List.replicate e.toNat '0') (fp := ['0']) (j := e.toNat + 1) ?_ ?_ ?_ ?_⟩
    · refine ⟨by simp [n3], ?_, mem2 n1 (hz _)⟩
      rw [List.length_append, List.length_replicate]
      omega
    · exact ⟨by simp, by simp, hz 1⟩
    · have e1 : numDigits (List.replicate e.toNat '0') = e.toNat := by
        rw [numDigits_digits (hz _), List.length_replicate]
      rw [litVal_append, litVal_append, litVal_zeros, n2, e1]
      have e2 : numDigits ['0'] = 1 := by decide
      have e3 : litVal 10 ['0'] = 0 := by decide
      rw [e2, e3, Nat.add_zero, Nat.add_zero, Nat.mul_assoc, ← Nat.pow_add]
    · simp
      omega
  split
  · rename_i he hl
    have hsub : ∀ k, (∀ x ∈ ds.take k, IsDigit 10 x) ∧ ∀ x ∈ ds.drop k, IsDigit 10 x :=
      fun k => ⟨fun x hx => n1 x (List.mem_of_mem_take hx), fun x hx => n1 x (List.mem_of_mem_drop hx)⟩
    refine ⟨_, printed_frac (j := 0) ⟨?_, ?_, (hsub _).1⟩ ⟨?_, ?_, (hsub _).2⟩ ?_ ?_⟩
    · intro h
      have := congrArg List.length h
      rw [List.length_take] at this
      simp at this
      omega
    · rw [List.length_take]; omega
    · intro h
      have := congrArg List.length h
      rw [List.length_drop] at this
      simp at this
      omega
    · rw [List.length_drop]; omega
    · rw [List.take_append_drop, n2]; simp
    · rw [List.length_drop]; omega
  · rename_i he hl
    refine ⟨_, printed_frac (ip := ['0']) (fp := List.replicate ((-e).toNat - ds.length) '0' ++ ds) (j := 0)
      ⟨by simp, by simp, hz 1⟩ ⟨by simp [n3], ?_, mem2 (hz _) n1⟩ ?_ ?_⟩
    · rw [List.length_append, List.length_replicate]
      omega
    · have e3 : litVal 10 ['0'] = 0 := by decide
      rw [litVal_append, litVal_append, litVal_zeros, n2, e3]
      simp
    · rw [List.length_append, List.length_replicate]
      omega

theorem printed_expText {neg : Bool} {c : Nat} {e : Int} (h1 : (showNat c).length ≤ 17)
    (h2 : e + (showNat c).length ≤ 10000) (h3 : -10000 ≤ e) : ∃ p, Printed neg (expText (showNat c) e) c e p := by
  obtain ⟨n1, n2, n3⟩ := showNat_digits c
  cases hds : showNat c with
  | nil => exact absurd hds n3
  | cons d rest =>
    rw [hds] at h1 h2 n1 n2
    simp only [List.length_cons] at h1 h2
    have hE : (e + (rest.length : Int)).natAbs < 10 ^ 38 := by omega
    have := printed_exp (neg := neg) (n1 d (by simp)) (fun x hx => n1 x (by simp [hx])) (by omega) n2 hE
    have e1 : expText (d :: rest) e = [d] ++ (if rest = [] then [] else '.' :: rest) ++ 'e' :: showInt (e + rest.length) := by
      unfold expText
      have : (((d :: rest).length : Int) - 1) = rest.length := by simp
      rw [this]
      cases rest with
      | nil => simp
      | cons a b => simp
    rw [e1]
    exact ⟨_, this⟩

theorem expLimit_eq : expLimit = 10 ^ 16 * 2 ^ 1074 := by decide +kernel

/-- The text of a positive magnitude. -/
theorem printed_pos {neg : Bool} {v b : Nat} (hb : b < infBits) (h0 : 0 < v) (hv : magOf b = v) {c : Nat} {e : Int}
    (hs : shortest v b = (c, e)) :
    ∃ p, Printed neg (if useExp v b then expText (showNat c) e else pointText (showNat c) e) c e p := by
  obtain ⟨-, s1, s2, s3⟩ := shortest_size (Nat.le_of_lt hb) h0 hv hs
  have hlen : (showNat c).length ≤ 17 := showNat_length_le s1 (by decide)
  have hL := (decLen_bounds h0).2.2
  have hmax : decLen v ≤ 1024 + 400 := decLen_le (k := 1024) h0 (hv ▸ magOf_finite hb)
  by_cases hu : useExp v b = true
  · rw [if_pos hu]
    exact printed_expText hlen (by omega) (by omega)
  · rw [if_neg hu]
    unfold useExp at hu
    rw [Bool.or_eq_true, decide_eq_true_eq, decide_eq_true_eq, not_or, Nat.not_lt, Nat.not_le] at hu
    obtain ⟨hu1, hu2⟩ := hu
    rw [expLimit_eq] at hu2
    have hmax : decLen v ≤ 16 + 400 := decLen_le (k := 16) h0 hu2
    have hthr : 2 ^ 1074 ≤ v * 10 ^ 5 :=
      Nat.le_trans exp_threshold (Nat.mul_le_mul_right _ (hv ▸ magOf_le hu1))
    have hmin : 400 - 5 < decLen v := le_decLen h0 (by decide) hthr
    exact printed_point hlen (by omega) (by omega)

theorem decBits_zero : decBits 0 0 = 0 := by decide +kernel

theorem printed_zero (neg : Bool) : ∃ p, Printed neg ['0', '.', '0'] 0 0 p := by
  have hz : SmallDigits ['0'] := ⟨by simp, by simp, fun y hy => by simp at hy; rw [hy]; exact isDigit_zero⟩
  exact ⟨_, printed_frac (ip := ['0']) (fp := ['0']) (j := 1) hz hz (by decide) (by decide)⟩

/-- The literal that is printed for a finite float. -/
theorem showFloat_printed {x : F64} (h : x.isFinite = true) : ∃ p t c e, showFloat x = signText x.neg ++ t ∧
    Printed x.neg t c e p ∧ decBits c e = x.bits.val % 2 ^ 63 ∧
    (0 < mag x → shortest (mag x) (x.bits.val % 2 ^ 63) = (c, e)) ∧ (mag x = 0 → c = 0) := by
  have hb := F64.finite_iff.mp h
  have hv : magOf (x.bits.val % 2 ^ 63) = mag x := magOf_mag
  have hm : x.scaledMag = mag x := by rw [← magOf_scaled, magOf_mag]
  have ht : showFloat x = signText x.neg ++ magText x.scaledMag (x.bits.val % 2 ^ 63) := by
    unfold showFloat signText
    split <;> rfl
  rw [ht, hm]
  generalize x.bits.val % 2 ^ 63 = b at *
  generalize mag x = v at *
  generalize x.neg = neg at *
  unfold magText
  by_cases h0 : v = 0
  · have hb0 : b = 0 := magOf_inj (by rw [hv, h0, magOf_low (by decide)])
    obtain ⟨p, hp⟩ := printed_zero neg
    rw [if_pos h0]
    refine ⟨p, _, 0, 0, rfl, hp, ?_, fun hp => by omega, fun _ => rfl⟩
    rw [hb0]
    exact decBits_zero
  · have hpos : 0 < v := Nat.pos_of_ne_zero h0
    obtain ⟨n, j, c, e, n1, n2, hs, c0, c1, hdec, _⟩ := shortest_spec (Nat.le_of_lt hb) hpos hv
    obtain ⟨p, hp⟩ := printed_pos (neg := neg) hb hpos hv hs
    rw [if_neg h0, hs]
    exact ⟨p, _, c, e, rfl, hp, hdec, fun _ => rfl, fun h => absurd h h0⟩

theorem Printed.denotes {x : F64} {t : Str} {c : Nat} {e : Int} {p : FloatNum}
    (h : Printed x.neg t c e p) (hd : decBits c e = x.bits.val % 2 ^ 63) : Denotes p x := by
  obtain ⟨j, h1, h2⟩ := h.value
  refine ⟨h.neg.symm, nearestFloat_iff.mpr ?_⟩
  have e1 : decBits p.coeff p.exponent = x.bits.val % 2 ^ 63 := by
    rw [h1, h2, decBits_shift, ← hd]
    congr 1
    omega
  rw [← e1]
  exact nearestBits_near _ (decDen_pos _)

end Kdl
