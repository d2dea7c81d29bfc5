import Verif.Lemmas.FloatRound
/-
The shortest digits of a float.
-/

namespace Kdl
open Spec

/-! ### Number of digits -/

theorem natDigitsRev_bounds : ∀ (fuel n : Nat), n < fuel → 0 < n →
    10 ^ ((natDigitsRev fuel n).length - 1) ≤ n ∧ n < 10 ^ (natDigitsRev fuel n).length ∧
      0 < (natDigitsRev fuel n).length
  | 0, _, h, _ => absurd h (by omega)
  | fuel + 1, n, h, h0 => by
    unfold natDigitsRev
    split
    · simp; omega
    · obtain ⟨h1, h2, h3⟩ := natDigitsRev_bounds fuel (n / 10) (by omega) (by omega)
      simp only [List.length_cons, Nat.add_sub_cancel]
      generalize (natDigitsRev fuel (n / 10)).length = l at *
      obtain ⟨k, rfl⟩ : ∃ k, l = k + 1 := ⟨l - 1, by omega⟩
      rw [Nat.add_sub_cancel] at h1
      rw [Nat.pow_succ] at h2 ⊢
      rw [Nat.pow_succ, Nat.pow_succ]
      omega

theorem showNat_bounds {n : Nat} (h : 0 < n) :
    10 ^ ((showNat n).length - 1) ≤ n ∧ n < 10 ^ (showNat n).length ∧ 0 < (showNat n).length := by
  have := natDigitsRev_bounds (n + 1) n (by omega) h
  simpa [showNat] using this

theorem ten_pow_pos (k : Nat) : 0 < 10 ^ k := Nat.pow_pos (by decide)

theorem ten_pow_lt {a b : Nat} (h : 10 ^ a < 10 ^ b) : a < b := (Nat.pow_lt_pow_iff_right (by decide)).mp h

/-! ### The digits in front of the decimal point -/

theorem decLen_bounds {v : Nat} (h : 0 < v) :
    10 ^ (decLen v - 1) * 2 ^ 1074 ≤ v * 10 ^ 400 ∧ v * 10 ^ 400 < 10 ^ decLen v * 2 ^ 1074 ∧ 0 < decLen v := by
  have hx : 0 < v * 10 ^ 400 / 2 ^ 1074 := by
    refine Nat.div_pos ?_ (Nat.two_pow_pos _)
    have h1 : 2 ^ 1074 ≤ 10 ^ 400 := by
      calc 2 ^ 1074 ≤ 2 ^ 1200 := Nat.pow_le_pow_right (by decide) (by decide)
        _ = 8 ^ 400 := by rw [show (8 : Nat) = 2 ^ 3 from rfl, ← Nat.pow_mul]
        _ ≤ 10 ^ 400 := Nat.pow_le_pow_left (by decide) _
    exact Nat.le_trans h1 (Nat.le_mul_of_pos_left _ h)
  obtain ⟨h1, h2, h3⟩ := showNat_bounds hx
  have e : (showNat (v * 10 ^ 400 / 2 ^ 1074)).length = decLen v := rfl
  rw [e] at h1 h2 h3
  exact ⟨(Nat.le_div_iff_mul_le (Nat.two_pow_pos _)).mp h1,
    (Nat.div_lt_iff_lt_mul (Nat.two_pow_pos _)).mp h2, h3⟩

/-- The magnitude times `10^t` as a fraction. -/
theorem shift_bounds {v : Nat} (h : 0 < v) {n : Nat} (hn : 0 < n) :
    10 ^ (n - 1) * (2 ^ 1074 * 10 ^ (-decShift v n).toNat) ≤ v * 10 ^ (decShift v n).toNat ∧
    v * 10 ^ (decShift v n).toNat < 10 ^ n * (2 ^ 1074 * 10 ^ (-decShift v n).toNat) := by
  obtain ⟨h1, h2, h3⟩ := decLen_bounds h
  unfold decShift
  generalize decLen v = L at *
  generalize ha : ((n + 400 : Int) - L).toNat = a
  generalize hb : (-((n + 400 : Int) - L)).toNat = b
  generalize 2 ^ 1074 = u at *
  have e1 : n - 1 + b + 400 = L - 1 + a := by omega
  have e2 : n + b + 400 = L + a := by omega
  have p := ten_pow_pos 400
  have pa := ten_pow_pos a
  constructor
  · refine Nat.le_of_mul_le_mul_right ?_ p
    calc 10 ^ (n - 1) * (u * 10 ^ b) * 10 ^ 400 = 10 ^ (n - 1 + b + 400) * u := by rw [Nat.pow_add, Nat.pow_add]; ring
      _ = 10 ^ (L - 1) * u * 10 ^ a := by rw [e1, Nat.pow_add]; ring
      _ ≤ v * 10 ^ 400 * 10 ^ a := Nat.mul_le_mul_right _ h1
      _ = v * 10 ^ a * 10 ^ 400 := by ring
  · refine Nat.lt_of_mul_lt_mul_right (a := 10 ^ 400) ?_
    calc v * 10 ^ a * 10 ^ 400 = v * 10 ^ 400 * 10 ^ a := by ring
      _ < 10 ^ L * u * 10 ^ a := Nat.mul_lt_mul_of_pos_right h2 pa
      _ = 10 ^ (n + b + 400) * u := by rw [e2, Nat.pow_add]; ring
      _ = 10 ^ n * (u * 10 ^ b) * 10 ^ 400 := by rw [Nat.pow_add, Nat.pow_add]; ring

/-! ### Candidates -/

/-- The number below the magnitude. -/
def digitsLow (v n : Nat) : Nat := v * 10 ^ (decShift v n).toNat / (2 ^ 1074 * 10 ^ (-decShift v n).toNat)

theorem decDen_pos (e : Int) : 0 < decDen e := ten_pow_pos _

theorem decNum_neg (c : Nat) (t : Int) : decNum c (-t) = c * (2 ^ 1074 * 10 ^ (-t).toNat) := by
  unfold decNum
  ring

theorem decDen_neg (t : Int) : decDen (-t) = 10 ^ t.toNat := by
  unfold decDen
  rw [Int.neg_neg]

theorem digitsLow_bounds {v : Nat} (h : 0 < v) {n : Nat} (hn : 0 < n) :
    10 ^ (n - 1) ≤ digitsLow v n ∧ digitsLow v n < 10 ^ n := by
  obtain ⟨h1, h2⟩ := shift_bounds h hn
  have hp : 0 < 2 ^ 1074 * 10 ^ (-decShift v n).toNat := Nat.mul_pos (Nat.two_pow_pos _) (ten_pow_pos _)
  exact ⟨(Nat.le_div_iff_mul_le hp).mpr h1, (Nat.div_lt_iff_lt_mul hp).mpr h2⟩

/-- The magnitude lies between the two candidates. -/
theorem digitsLow_near (v n : Nat) :
    decNum (digitsLow v n) (-decShift v n) ≤ v * decDen (-decShift v n) ∧
    v * decDen (-decShift v n) < decNum (digitsLow v n + 1) (-decShift v n) := by
  rw [decNum_neg, decNum_neg, decDen_neg]
  have hp : 0 < 2 ^ 1074 * 10 ^ (-decShift v n).toNat := Nat.mul_pos (Nat.two_pow_pos _) (ten_pow_pos _)
  unfold digitsLow
  generalize 2 ^ 1074 * 10 ^ (-decShift v n).toNat = den at *
  generalize v * 10 ^ (decShift v n).toNat = num at *
  have h1 := Nat.div_add_mod num den
  have h2 := Nat.mod_lt num hp
  have e1 : num / den * den = den * (num / den) := Nat.mul_comm _ _
  have e2 : (num / den + 1) * den = den * (num / den) + den := by ring
  omega

/-- What `pickDigits` returns. -/
theorem pickDigits_some {v b n c : Nat} {e : Int} (h : pickDigits v b n = some (c, e)) :
    e = -decShift v n ∧ decBits c e = b ∧
    ((c = digitsLow v n ∧ (decBits (digitsLow v n + 1) e = b →
        dist (decNum c e) (v * decDen e) ≤ dist (decNum (digitsLow v n + 1) e) (v * decDen e))) ∨
     (c = digitsLow v n + 1 ∧ (decBits (digitsLow v n) e = b →
        dist (decNum c e) (v * decDen e) ≤ dist (decNum (digitsLow v n) e) (v * decDen e)))) := by
  have hn := digitsLow_near v n
  have hd : 2 * (v * 10 ^ (decShift v n).toNat % (2 ^ 1074 * 10 ^ (-decShift v n).toNat)) <
        2 ^ 1074 * 10 ^ (-decShift v n).toNat ↔
      2 * (v * decDen (-decShift v n)) < decNum (digitsLow v n) (-decShift v n) + decNum (digitsLow v n + 1) (-decShift v n) := by
    rw [decNum_neg, decNum_neg, decDen_neg]
    unfold digitsLow
    generalize 2 ^ 1074 * 10 ^ (-decShift v n).toNat = den
    generalize v * 10 ^ (decShift v n).toNat = num
    have h1 := Nat.div_add_mod num den
    have e1 : num / den * den = den * (num / den) := Nat.mul_comm _ _
    have e2 : (num / den + 1) * den = den * (num / den) + den := by ring
    rw [e1, e2]
    omega
  unfold pickDigits at h
  simp only at h
  have e : v * 10 ^ (decShift v n).toNat / (2 ^ 1074 * 10 ^ (-decShift v n).toNat) = digitsLow v n := rfl
  rw [e] at h
  simp only [hd] at h
  split at h
  · rename_i hc
    simp only [Bool.and_eq_true, beq_iff_eq, Bool.or_eq_true, Bool.not_eq_true', decide_eq_true_eq, beq_eq_false_iff_ne] at hc
    simp only [Option.some.injEq, Prod.mk.injEq] at h
    obtain ⟨rfl, rfl⟩ := h
    refine ⟨rfl, hc.1, Or.inl ⟨rfl, fun hh => ?_⟩⟩
    rcases hc.2 with h | h
    · exact absurd hh h
    · unfold dist
      omega
  · rename_i hc
    split at h
    · rename_i hc2
      simp only [Option.some.injEq, Prod.mk.injEq] at h
      obtain ⟨rfl, rfl⟩ := h
      refine ⟨rfl, by simpa using hc2, Or.inr ⟨rfl, fun hh => ?_⟩⟩
      have : ¬ 2 * (v * decDen (-decShift v n)) < decNum (digitsLow v n) (-decShift v n) + decNum (digitsLow v n + 1) (-decShift v n) := by
        intro hl
        exact hc (by simp [hh, hl])
      unfold dist
      omega
    · cases h

theorem pickDigits_isSome {v b n : Nat} (h : decBits (digitsLow v n) (-decShift v n) = b ∨
    decBits (digitsLow v n + 1) (-decShift v n) = b) : ∃ p, pickDigits v b n = some p := by
  unfold pickDigits
  simp only
  have e : v * 10 ^ (decShift v n).toNat / (2 ^ 1074 * 10 ^ (-decShift v n).toNat) = digitsLow v n := rfl
  rw [e]
  split
  · exact ⟨_, rfl⟩
  · rename_i hc
    split
    · exact ⟨_, rfl⟩
    · rename_i hc2
      exfalso
      rcases h with h | h
      · simp [h] at hc
        simp at hc2
        exact hc2 hc.1
      · simp [h] at hc2

/-- Seventeen digits are enough. -/
theorem pickDigits_17 {v b : Nat} (hb : b ≤ infBits) (h0 : 0 < v) (hv : magOf b = v) :
    ∃ p, pickDigits v b 17 = some p := by
  obtain ⟨h1, h2⟩ := digitsLow_near v 17
  obtain ⟨h3, -⟩ := shift_bounds h0 (n := 17) (by decide)
  have hd := decDen_pos (-decShift v 17)
  rw [← decDen_neg (decShift v 17)] at h3
  have e2 : decNum (digitsLow v 17 + 1) (-decShift v 17) =
      decNum (digitsLow v 17) (-decShift v 17) + 2 ^ 1074 * 10 ^ (-decShift v 17).toNat := by
    rw [decNum_neg, decNum_neg]
    ring
  generalize 2 ^ 1074 * 10 ^ (-decShift v 17).toNat = den at *
  refine pickDigits_isSome ?_
  by_cases hc : 2 * dist (decNum (digitsLow v 17) (-decShift v 17)) (v * decDen (-decShift v 17)) ≤ den
  · left
    refine nearestBits_close hd hb ?_
    rw [hv]
    unfold dist at *
    omega
  · right
    refine nearestBits_close hd hb ?_
    rw [hv]
    unfold dist at *
    omega

/-! ### The search -/

theorem searchDigits_spec {v b : Nat} (fuel : Nat) : ∀ (n m : Nat), n ≤ m → m < n + fuel → (∃ p, pickDigits v b m = some p) →
    ∃ k, n ≤ k ∧ k ≤ m ∧ pickDigits v b k = some (searchDigits v b fuel n) ∧
      ∀ j, n ≤ j → j < k → pickDigits v b j = none := by
  induction fuel with
  | zero => intro n m h1 h2 _; omega
  | succ fuel ih =>
    intro n m h1 h2 hp
    unfold searchDigits
    cases hc : pickDigits v b n with
    | some p => exact ⟨n, Nat.le_refl _, h1, by rw [hc]; rfl, fun j _ _ => by omega⟩
    | none =>
      have hne : n ≠ m := by
        rintro rfl
        obtain ⟨p, hp⟩ := hp
        rw [hc] at hp
        cases hp
      obtain ⟨k, k1, k2, k3, k4⟩ := ih (n + 1) m (by omega) (by omega) hp
      refine ⟨k, by omega, k2, by rw [Option.getD_none]; exact k3, fun j j1 j2 => ?_⟩
      rcases Nat.eq_or_lt_of_le j1 with h | h
      · rw [← h]; exact hc
      · exact k4 j h j2

/-- Every decimal with at most `n` digits is at most the lower candidate, or at least the upper one. -/
theorem decimal_split {v : Nat} (h : 0 < v) {n : Nat} (hn : 0 < n) {c : Nat} (hc : c < 10 ^ n) (e : Int) :
    decNum c e * decDen (-decShift v n) ≤ decNum (digitsLow v n) (-decShift v n) * decDen e ∨
    decNum (digitsLow v n + 1) (-decShift v n) * decDen e ≤ decNum c e * decDen (-decShift v n) := by
  have hlow := (digitsLow_bounds h hn).1
  generalize digitsLow v n = lo at *
  generalize decShift v n = t at *
  rw [decNum_neg, decNum_neg, decDen_neg]
  unfold decNum decDen
  generalize 2 ^ 1074 = u
  by_cases ht : 0 ≤ e + t
  · have e1 : e.toNat + t.toNat = (e + t).toNat + (-t).toNat + (-e).toNat := by omega
    have e2 : c * 10 ^ e.toNat * u * 10 ^ t.toNat = c * 10 ^ (e + t).toNat * (u * 10 ^ (-t).toNat) * 10 ^ (-e).toNat := by
      calc c * 10 ^ e.toNat * u * 10 ^ t.toNat = c * u * 10 ^ (e.toNat + t.toNat) := by rw [Nat.pow_add]; ring
        _ = _ := by rw [e1, Nat.pow_add, Nat.pow_add]; ring
    rw [e2]
    rcases Nat.lt_or_ge lo (c * 10 ^ (e + t).toNat) with h1 | h1
    · right
      exact Nat.mul_le_mul_right _ (Nat.mul_le_mul_right _ h1)
    · left
      exact Nat.mul_le_mul_right _ (Nat.mul_le_mul_right _ h1)
  · left
    calc c * 10 ^ e.toNat * u * 10 ^ t.toNat = c * (u * 10 ^ (e.toNat + t.toNat)) := by rw [Nat.pow_add]; ring
      _ ≤ 10 ^ n * (u * 10 ^ (e.toNat + t.toNat)) := Nat.mul_le_mul_right _ (Nat.le_of_lt hc)
      _ = u * 10 ^ (n + (e.toNat + t.toNat)) := by rw [Nat.pow_add]; ring
      _ ≤ u * 10 ^ (n - 1 + ((-t).toNat + (-e).toNat)) :=
        Nat.mul_le_mul_left _ (Nat.pow_le_pow_right (by decide) (by omega))
      _ = 10 ^ (n - 1) * (u * 10 ^ (-t).toNat) * 10 ^ (-e).toNat := by rw [Nat.pow_add, Nat.pow_add]; ring
      _ ≤ lo * (u * 10 ^ (-t).toNat) * 10 ^ (-e).toNat :=
        Nat.mul_le_mul_right _ (Nat.mul_le_mul_right _ hlow)

theorem nearestBits_self {b v : Nat} (hb : b ≤ infBits) (hv : magOf b = v) (e : Int) :
    nearestBits (v * decDen e) (decDen e) = b := by
  rw [← hv]
  exact nearestBits_exact (decDen_pos _) hb

/-- If a decimal with `n` digits is read back, so is one of the candidates with `n` digits. -/
theorem pickDigits_of_decimal {v b : Nat} (hb : b ≤ infBits) (h0 : 0 < v) (hv : magOf b = v) {n : Nat} (hn : 0 < n)
    {c : Nat} {e : Int} (hc : c < 10 ^ n) (hr : decBits c e = b) : ∃ p, pickDigits v b n = some p := by
  refine pickDigits_isSome ?_
  obtain ⟨h1, h2⟩ := digitsLow_near v n
  have hself := nearestBits_self hb hv (-decShift v n)
  have d1 := decDen_pos (-decShift v n)
  have d2 := decDen_pos e
  rcases decimal_split h0 hn hc e with h | h
  · left
    have a1 := nearestBits_mono d2 d1 h
    have a2 := nearestBits_mono d1 d1 (Nat.mul_le_mul_right (decDen (-decShift v n)) h1)
    unfold decBits at *
    omega
  · right
    have a1 := nearestBits_mono d1 d2 h
    have a2 := nearestBits_mono d1 d1 (Nat.mul_le_mul_right (decDen (-decShift v n)) (Nat.le_of_lt h2))
    unfold decBits at *
    omega

/-! ### Zeros at the end -/

theorem stripZeros_spec : ∀ (fuel c : Nat) (e : Int), ∃ j : Nat, (stripZeros fuel (c, e)).2 = e + j ∧
    c = (stripZeros fuel (c, e)).1 * 10 ^ j
  | 0, c, e => ⟨0, by simp [stripZeros], by simp [stripZeros]⟩
  | fuel + 1, c, e => by
    unfold stripZeros
    split
    · rename_i h
      obtain ⟨j, h1, h2⟩ := stripZeros_spec fuel (c / 10) (e + 1)
      refine ⟨j + 1, by rw [h1]; push_cast; ring, ?_⟩
      rw [Nat.pow_succ, ← Nat.mul_assoc, ← h2]
      omega
    · exact ⟨0, by simp, by simp⟩

theorem stripZeros_pow : ∀ (n fuel : Nat) (e : Int), n ≤ fuel → (stripZeros fuel (10 ^ n, e)).1 = 1
  | 0, fuel, e, _ => by
    cases fuel <;> simp [stripZeros]
  | n + 1, 0, e, h => absurd h (by omega)
  | n + 1, fuel + 1, e, h => by
    unfold stripZeros
    have e1 : 10 ^ (n + 1) % 10 = 0 := by rw [Nat.pow_succ]; omega
    have e2 : 10 ^ (n + 1) / 10 = 10 ^ n := by rw [Nat.pow_succ]; omega
    rw [if_pos e1, e2]
    exact stripZeros_pow n fuel _ (by omega)

theorem decimal_shift (c j : Nat) (e : Int) :
    decNum (c * 10 ^ j) e * decDen (e + j) = decNum c (e + j) * decDen e := by
  unfold decNum decDen
  generalize 2 ^ 1074 = u
  have e1 : j + e.toNat + (-(e + j)).toNat = (e + j).toNat + (-e).toNat := by omega
  calc c * 10 ^ j * 10 ^ e.toNat * u * 10 ^ (-(e + j)).toNat = c * u * 10 ^ (j + e.toNat + (-(e + j)).toNat) := by
        rw [Nat.pow_add, Nat.pow_add]; ring
    _ = _ := by rw [e1, Nat.pow_add]; ring

theorem decBits_shift (c j : Nat) (e : Int) : decBits (c * 10 ^ j) e = decBits c (e + j) :=
  nearestBits_congr (decDen_pos _) (decDen_pos _) (decimal_shift c j e)

/-- The digits that are printed. -/
theorem shortest_spec {v b : Nat} (hb : b ≤ infBits) (h0 : 0 < v) (hv : magOf b = v) :
    ∃ n j : Nat, ∃ c : Nat, ∃ e : Int, 0 < n ∧ n ≤ 17 ∧ shortest v b = (c, e) ∧ 0 < c ∧ c < 10 ^ n ∧ decBits c e = b ∧
      pickDigits v b n = some (c * 10 ^ j, e - j) ∧ 10 ^ (n - 1) ≤ c * 10 ^ j ∧ c * 10 ^ j ≤ 10 ^ n ∧
      ∀ k, k < n → 0 < k → pickDigits v b k = none := by
  obtain ⟨n, n1, n2, hp, hmin⟩ := searchDigits_spec 17 1 17 (by decide) (by decide) (pickDigits_17 hb h0 hv)
  have hs : shortest v b = stripZeros 17 (searchDigits v b 17 1) := rfl
  generalize searchDigits v b 17 1 = p at *
  obtain ⟨c0, e0⟩ := p
  obtain ⟨j, hj1, hj2⟩ := stripZeros_spec 17 c0 e0
  rw [← hs] at hj1 hj2
  generalize shortest v b = q at *
  obtain ⟨c, e⟩ := q
  simp only at hj1 hj2
  obtain ⟨p1, p2, p3⟩ := pickDigits_some hp
  obtain ⟨l1, l2⟩ := digitsLow_bounds h0 n1
  have hc1 : 10 ^ (n - 1) ≤ c0 := by rcases p3 with p | p <;> omega
  have hc2 : c0 ≤ 10 ^ n := by rcases p3 with p | p <;> omega
  have hpos : 0 < c := by
    rcases Nat.eq_zero_or_pos c with h | h
    · rw [h, Nat.zero_mul] at hj2
      have := ten_pow_pos (n - 1)
      omega
    · exact h
  have he : e - (j : Int) = e0 := by omega
  refine ⟨n, j, c, e, n1, n2, rfl, hpos, ?_, ?_, ?_, ?_, ?_, fun k k1 k2 => hmin k k2 k1⟩
  · rcases Nat.lt_or_eq_of_le hc2 with h | h
    · refine Nat.lt_of_le_of_lt ?_ h
      rw [hj2]
      exact Nat.le_mul_of_pos_right _ (ten_pow_pos _)
    · have := stripZeros_pow n 17 e0 n2
      rw [← h, ← hs] at this
      simp only at this
      rw [this]
      calc 1 = 10 ^ 0 := rfl
        _ < 10 ^ n := Nat.pow_lt_pow_right (by decide) n1
  · rw [hj1, ← decBits_shift, ← hj2]
    exact p2
  · rw [he, ← hj2]
    exact hp
  · rw [← hj2]; exact hc1
  · rw [← hj2]; exact hc2

end Kdl
