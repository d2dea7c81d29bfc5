import Mathlib.Tactic.Ring
import Mathlib.Tactic.Linarith
import Verif.Model.FloatText
import Verif.Spec.FloatText
/-
Rounding to the nearest float.
-/

namespace Kdl
open Spec

/-- The magnitude with the given bits, in units of `2^-1074`. Infinity counts as `2^1024`. -/
def magOf (b : Nat) : Nat :=
  if b / 2 ^ 52 = 0 then b else (2 ^ 52 + b % 2 ^ 52) * 2 ^ (b / 2 ^ 52 - 1)

/-- `b` are the bits of the magnitude nearest to `n / d` units. -/
def Nearest (n d b : Nat) : Prop :=
  b ≤ infBits ∧ ∀ b' ≤ infBits, dist (magOf b * d) n ≤ dist (magOf b' * d) n ∧
    (dist (magOf b * d) n = dist (magOf b' * d) n → b' ≠ b → b % 2 = 0)

/-! ### `roundDiv` -/

theorem roundDiv_mul (n d : Nat) {a : Nat} (ha : 0 < a) : roundDiv (n * a) (d * a) = roundDiv n d := by
  unfold roundDiv
  rw [Nat.mul_div_mul_right _ _ ha, Nat.mul_mod_mul_right]
  have e1 : 2 * (n % d * a) < d * a ↔ 2 * (n % d) < d := by
    rw [← Nat.mul_assoc]
    exact Nat.mul_lt_mul_right ha
  have e2 : d * a < 2 * (n % d * a) ↔ d < 2 * (n % d) := by
    rw [← Nat.mul_assoc]
    exact Nat.mul_lt_mul_right ha
  simp only [e1, e2]

/-- `roundDiv` gives the nearest natural number, ties to even. -/
theorem roundDiv_near (n : Nat) {d : Nat} (hd : 0 < d) (j : Nat) :
    dist (roundDiv n d * d) n ≤ dist (j * d) n ∧
    (dist (roundDiv n d * d) n = dist (j * d) n → j ≠ roundDiv n d → roundDiv n d % 2 = 0) := by
  have h1 := Nat.div_add_mod n d
  have h2 := Nat.mod_lt n hd
  generalize hq : n / d = q at *
  generalize hr : n % d = r at *
  have hm : ∀ j, j < q ∨ j = q ∨ j = q + 1 ∨ q + 1 < j := by omega
  have key : (j < q → j * d + d ≤ q * d) ∧ (q + 1 < j → q * d + 2 * d ≤ j * d) := by
    constructor <;> intro h <;> nlinarith
  have e1 : d * q = q * d := Nat.mul_comm _ _
  have e2 : (q + 1) * d = q * d + d := by ring
  unfold roundDiv dist
  rw [hq, hr]
  rcases hm j with h | rfl | rfl | h
  · have := key.1 h
    split
    · constructor <;> omega
    split
    · rw [e2]; constructor <;> omega
    split
    · constructor <;> omega
    · rw [e2]; constructor <;> omega
  · split
    · constructor <;> omega
    split
    · rw [e2]; constructor <;> omega
    split
    · constructor <;> omega
    · rw [e2]; constructor <;> omega
  · split
    · rw [e2]; constructor <;> omega
    split
    · constructor <;> omega
    split
    · rw [e2]; constructor <;> omega
    · rw [e2]; constructor <;> omega
  · have := key.2 h
    split
    · constructor <;> omega
    split
    · rw [e2]; constructor <;> omega
    split
    · constructor <;> omega
    · rw [e2]; constructor <;> omega

theorem roundDiv_le {n d m : Nat} (hd : 0 < d) (h : n ≤ m * d) : roundDiv n d ≤ m := by
  have h1 := Nat.div_add_mod n d
  have h2 := Nat.mod_lt n hd
  have h3 : n / d ≤ m := Nat.div_le_of_le_mul (by rw [Nat.mul_comm]; exact h)
  unfold roundDiv
  split
  · exact h3
  · rcases Nat.lt_or_eq_of_le h3 with h | h
    · split
      · omega
      split <;> omega
    · rw [h] at h1
      have : d * m = m * d := Nat.mul_comm _ _
      split
      · omega
      split <;> omega

theorem le_roundDiv {n d m : Nat} (hd : 0 < d) (h : m * d ≤ n) : m ≤ roundDiv n d := by
  have h3 : m ≤ n / d := (Nat.le_div_iff_mul_le hd).mpr h
  unfold roundDiv
  split
  · exact h3
  split
  · omega
  split <;> omega

/-! ### Magnitudes -/

theorem magOf_low {m : Nat} (h : m ≤ 2 ^ 53) : magOf m = m := by
  unfold magOf
  rcases Nat.lt_or_ge m (2 ^ 52) with h1 | h1
  · rw [if_pos (by omega)]
  · rcases Nat.lt_or_ge m (2 ^ 53) with h2 | h2
    · have : m / 2 ^ 52 = 1 := by omega
      rw [if_neg (by omega), this]
      simp only [Nat.sub_self, Nat.pow_zero, Nat.mul_one]
      omega
    · have : m = 2 ^ 53 := by omega
      subst this
      decide

theorem magOf_high {k m : Nat} (h1 : 2 ^ 52 ≤ m) (h2 : m ≤ 2 ^ 53) : magOf (k * 2 ^ 52 + m) = m * 2 ^ k := by
  unfold magOf
  rcases Nat.lt_or_ge m (2 ^ 53) with h3 | h3
  · have e1 : (k * 2 ^ 52 + m) / 2 ^ 52 = k + 1 := by omega
    have e2 : (k * 2 ^ 52 + m) % 2 ^ 52 = m - 2 ^ 52 := by omega
    rw [if_neg (by omega), e1, e2, Nat.add_sub_cancel, Nat.add_sub_cancel' h1]
  · have e0 : m = 2 ^ 53 := by omega
    have e1 : (k * 2 ^ 52 + m) / 2 ^ 52 = k + 2 := by omega
    have e2 : (k * 2 ^ 52 + m) % 2 ^ 52 = 0 := by omega
    rw [if_neg (by omega), e1, e2, e0]
    have : k + 2 - 1 = k + 1 := by omega
    rw [this]
    ring

theorem magOf_succ (b : Nat) : magOf (b + 1) = magOf b + 2 ^ (b / 2 ^ 52 - 1) := by
  by_cases h0 : b / 2 ^ 52 = 0
  · rw [magOf_low (by omega), magOf_low (by omega), h0]
    rfl
  · obtain ⟨k, m, rfl, h1, h2⟩ : ∃ k m, b = k * 2 ^ 52 + m ∧ 2 ^ 52 ≤ m ∧ m < 2 ^ 53 :=
      ⟨b / 2 ^ 52 - 1, b - (b / 2 ^ 52 - 1) * 2 ^ 52, by omega, by omega, by omega⟩
    rw [Nat.add_assoc, magOf_high (by omega) (by omega), magOf_high h1 (by omega)]
    have e1 : (k * 2 ^ 52 + m) / 2 ^ 52 = k + 1 := by omega
    rw [e1, Nat.add_sub_cancel]
    ring

theorem magOf_gap (b : Nat) : magOf (b + 1) ≤ 2 ^ 53 * (magOf (b + 1) - magOf b) := by
  rw [magOf_succ, Nat.add_sub_cancel_left, ← magOf_succ]
  by_cases h0 : b / 2 ^ 52 = 0
  · rw [magOf_low (by omega), h0]
    omega
  · obtain ⟨k, m, rfl, h1, h2⟩ : ∃ k m, b = k * 2 ^ 52 + m ∧ 2 ^ 52 ≤ m ∧ m < 2 ^ 53 :=
      ⟨b / 2 ^ 52 - 1, b - (b / 2 ^ 52 - 1) * 2 ^ 52, by omega, by omega, by omega⟩
    rw [Nat.add_assoc, magOf_high (by omega) (by omega)]
    have e1 : (k * 2 ^ 52 + m) / 2 ^ 52 = k + 1 := by omega
    rw [e1, Nat.add_sub_cancel]
    exact Nat.mul_le_mul_right _ (by omega)

theorem magOf_lt {a b : Nat} (h : a < b) : magOf a < magOf b := by
  induction b with
  | zero => omega
  | succ b ih =>
    have h1 : magOf b < magOf (b + 1) := by
      rw [magOf_succ]
      have : 0 < 2 ^ (b / 2 ^ 52 - 1) := Nat.two_pow_pos _
      omega
    rcases Nat.lt_succ_iff_lt_or_eq.mp h with h | rfl
    · exact Nat.lt_trans (ih h) h1
    · exact h1

theorem magOf_le {a b : Nat} (h : a ≤ b) : magOf a ≤ magOf b := by
  rcases Nat.lt_or_eq_of_le h with h | rfl
  · exact Nat.le_of_lt (magOf_lt h)
  · exact Nat.le_refl _

theorem magOf_inj {a b : Nat} (h : magOf a = magOf b) : a = b := by
  rcases Nat.lt_trichotomy a b with h1 | h1 | h1
  · have := magOf_lt h1; omega
  · exact h1
  · have := magOf_lt h1; omega

/-- A magnitude is below `2^(52+k)`, or a multiple of `2^k`. -/
theorem magOf_dvd (k b : Nat) : magOf b < 2 ^ 52 * 2 ^ k ∨ ∃ j, magOf b = j * 2 ^ k := by
  rcases Nat.lt_or_ge b (k * 2 ^ 52 + 2 ^ 52) with h | h
  · left
    have := magOf_lt h
    rwa [magOf_high (Nat.le_refl _) (by decide)] at this
  · right
    obtain ⟨k', m, rfl, h1, h2⟩ : ∃ k m, b = k * 2 ^ 52 + m ∧ 2 ^ 52 ≤ m ∧ m < 2 ^ 53 :=
      ⟨b / 2 ^ 52 - 1, b - (b / 2 ^ 52 - 1) * 2 ^ 52, by omega, by omega, by omega⟩
    rw [magOf_high h1 (by omega)]
    obtain ⟨i, rfl⟩ : ∃ i, k' = k + i := ⟨k' - k, by omega⟩
    exact ⟨m * 2 ^ i, by rw [Nat.pow_add]; ring⟩

/-! ### The nearest magnitude -/

/-- The rounded magnitude before the range is limited. -/
theorem roundBits_near (n : Nat) {d : Nat} (hd : 0 < d) (b : Nat) :
    let r := (Nat.log2 (n / d) - 52) * 2 ^ 52 + roundDiv n (d * 2 ^ (Nat.log2 (n / d) - 52))
    dist (magOf r * d) n ≤ dist (magOf b * d) n ∧
    (dist (magOf r * d) n = dist (magOf b * d) n → b ≠ r → r % 2 = 0) := by
  intro r
  rcases Nat.lt_or_ge (n / d) (2 ^ 53) with h | h
  · have hk : Nat.log2 (n / d) - 52 = 0 := by
      by_cases h0 : n / d = 0
      · rw [h0]; decide
      · have := (Nat.log2_lt h0 (k := 53)).mpr h
        omega
    have hr : r = roundDiv n d := by
      simp only [r]
      rw [hk]
      simp
    have hm : roundDiv n d ≤ 2 ^ 53 := by
      refine roundDiv_le hd ?_
      have := (Nat.div_lt_iff_lt_mul hd).mp h
      omega
    rw [hr, magOf_low hm]
    have := roundDiv_near n hd (magOf b)
    refine ⟨this.1, fun he hb => this.2 he fun hc => hb ?_⟩
    rw [← magOf_low hm] at hc
    exact magOf_inj hc
  · have h0 : n / d ≠ 0 := by omega
    generalize hk : Nat.log2 (n / d) - 52 = k at *
    have hlog : Nat.log2 (n / d) = k + 52 := by
      have := (Nat.le_log2 h0 (k := 53)).mpr h
      omega
    have l1 : 2 ^ (k + 52) ≤ n / d := (Nat.le_log2 h0).mp (by omega)
    have l2 : n / d < 2 ^ (k + 53) := (Nat.log2_lt h0).mp (by omega)
    have hd' : 0 < d * 2 ^ k := Nat.mul_pos hd (Nat.two_pow_pos _)
    have m1 : 2 ^ 52 * (d * 2 ^ k) ≤ n := by
      have := (Nat.le_div_iff_mul_le hd).mp l1
      calc 2 ^ 52 * (d * 2 ^ k) = 2 ^ (k + 52) * d := by rw [Nat.pow_add]; ring
        _ ≤ n := this
    have m2 : n ≤ 2 ^ 53 * (d * 2 ^ k) := by
      have := (Nat.div_lt_iff_lt_mul hd).mp l2
      calc n ≤ 2 ^ (k + 53) * d := by omega
        _ = 2 ^ 53 * (d * 2 ^ k) := by rw [Nat.pow_add]; ring
    have r1 := le_roundDiv hd' m1
    have r2 := roundDiv_le hd' m2
    have hmag : magOf r * d = roundDiv n (d * 2 ^ k) * (d * 2 ^ k) := by
      simp only [r, hk]
      rw [magOf_high r1 r2]
      ring
    have hpar : r % 2 = roundDiv n (d * 2 ^ k) % 2 := by
      simp only [r, hk]
      omega
    rw [hpar]
    rcases magOf_dvd k b with hb | ⟨j, hj⟩
    · have a1 := (roundDiv_near n hd' (2 ^ 52)).1
      have a2 : magOf b * d < 2 ^ 52 * (d * 2 ^ k) := by
        calc magOf b * d < 2 ^ 52 * 2 ^ k * d := Nat.mul_lt_mul_of_pos_right hb hd
          _ = _ := by ring
      rw [hmag]
      unfold dist at a1 ⊢
      constructor
      · omega
      · intro he
        omega
    · have a1 := roundDiv_near n hd' j
      have a2 : magOf b * d = j * (d * 2 ^ k) := by rw [hj]; ring
      rw [hmag, a2]
      refine ⟨a1.1, fun he hb => a1.2 he fun hc => hb ?_⟩
      refine magOf_inj ?_
      refine Nat.eq_of_mul_eq_mul_right hd ?_
      rw [a2, hc, hmag]

/-- The magnitude read is the nearest one. -/
theorem nearestBits_near (n : Nat) {d : Nat} (hd : 0 < d) : Nearest n d (nearestBits n d) := by
  refine ⟨Nat.min_le_right _ _, ?_⟩
  intro b hb
  have key := roundBits_near n hd
  simp only at key
  unfold nearestBits
  simp only
  generalize (Nat.log2 (n / d) - 52) * 2 ^ 52 + roundDiv n (d * 2 ^ (Nat.log2 (n / d) - 52)) = r at *
  rcases Nat.lt_or_ge infBits r with h | h
  · rw [Nat.min_eq_right (Nat.le_of_lt h)]
    have a1 := (key infBits).1
    have a2 : magOf infBits * d < magOf r * d := Nat.mul_lt_mul_of_pos_right (magOf_lt h) hd
    have a3 : magOf b * d ≤ magOf infBits * d := Nat.mul_le_mul_right _ (magOf_le hb)
    unfold dist at *
    refine ⟨by omega, fun he hne => ?_⟩
    decide
  · rw [Nat.min_eq_left h]
    exact key b

/-- There is only one nearest magnitude. -/
theorem Nearest.unique {n d b b' : Nat} (hd : 0 < d) (h : Nearest n d b) (h' : Nearest n d b') : b = b' := by
  have key : ∀ {a b : Nat}, Nearest n d a → Nearest n d b → ¬ a < b := by
    intro a b ha hb hlt
    have a1 := ha.2 b hb.1
    have b1 := hb.2 a ha.1
    have p1 := a1.2 (by omega) (by omega)
    have p2 := b1.2 (by omega) (by omega)
    have c1 := (ha.2 (a + 1) (by have := hb.1; omega)).1
    have c2 := (hb.2 (a + 1) (by have := hb.1; omega)).1
    have m1 : magOf a * d < magOf (a + 1) * d := Nat.mul_lt_mul_of_pos_right (magOf_lt (by omega)) hd
    have m2 : magOf (a + 1) * d < magOf b * d := Nat.mul_lt_mul_of_pos_right (magOf_lt (by omega)) hd
    unfold dist at *
    omega
  have := key h h'
  have := key h' h
  omega

theorem nearestBits_eq {n d b : Nat} (hd : 0 < d) (h : Nearest n d b) : nearestBits n d = b :=
  (nearestBits_near n hd).unique hd h

theorem nearestBits_mul (n d : Nat) {a : Nat} (ha : 0 < a) : nearestBits (n * a) (d * a) = nearestBits n d := by
  unfold nearestBits
  simp only
  rw [Nat.mul_div_mul_right _ _ ha, Nat.mul_right_comm, roundDiv_mul _ _ ha]

theorem nearestBits_congr {n d n' d' : Nat} (hd : 0 < d) (hd' : 0 < d') (h : n * d' = n' * d) :
    nearestBits n d = nearestBits n' d' := by
  rw [← nearestBits_mul n d hd', ← nearestBits_mul n' d' hd, h, Nat.mul_comm d d']

theorem nearestBits_mono {n d n' d' : Nat} (hd : 0 < d) (hd' : 0 < d') (h : n * d' ≤ n' * d) :
    nearestBits n d ≤ nearestBits n' d' := by
  rw [← nearestBits_mul n d hd', ← nearestBits_mul n' d' hd, Nat.mul_comm d' d]
  have hp : 0 < d * d' := Nat.mul_pos hd hd'
  generalize n * d' = n1 at *
  generalize n' * d = n2 at *
  generalize d * d' = D at *
  have h1 := nearestBits_near n1 hp
  have h2 := nearestBits_near n2 hp
  refine Nat.le_of_not_lt fun hlt => ?_
  have m := Nat.mul_lt_mul_of_pos_right (magOf_lt hlt) hp
  have a1 := (h1.2 _ h2.1).1
  have a2 := (h2.2 _ h1.1).1
  have e : n1 = n2 := by
    unfold dist at *
    omega
  rw [e] at hlt
  omega

theorem nearestBits_exact {b d : Nat} (hd : 0 < d) (hb : b ≤ infBits) : nearestBits (magOf b * d) d = b := by
  refine nearestBits_eq hd ⟨hb, fun b' _ => ?_⟩
  have h0 : dist (magOf b * d) (magOf b * d) = 0 := by unfold dist; omega
  rw [h0]
  refine ⟨Nat.zero_le _, fun he hne => absurd ?_ hne⟩
  have : magOf b' * d = magOf b * d := by unfold dist at he; omega
  exact magOf_inj (Nat.eq_of_mul_eq_mul_right hd this)

/-- Numbers within `2^-54` of a magnitude are rounded to it. -/
theorem nearestBits_close {n d b : Nat} (hd : 0 < d) (hb : b ≤ infBits)
    (h : 2 ^ 54 * dist n (magOf b * d) < magOf b * d) : nearestBits n d = b := by
  have h1 := nearestBits_near n hd
  generalize nearestBits n d = r at *
  have h2 := (h1.2 b hb).1
  rcases Nat.lt_trichotomy r b with hl | hl | hl
  · exfalso
    obtain ⟨c, rfl⟩ : ∃ c, b = c + 1 := ⟨b - 1, by omega⟩
    have g := magOf_gap c
    have m1 : magOf r * d ≤ magOf c * d := Nat.mul_le_mul_right _ (magOf_le (by omega))
    have m2 : magOf c * d ≤ magOf (c + 1) * d := Nat.mul_le_mul_right _ (magOf_le (by omega))
    have g' : magOf (c + 1) * d ≤ 2 ^ 53 * (magOf (c + 1) * d - magOf c * d) := by
      rw [← Nat.sub_mul, ← Nat.mul_assoc]
      exact Nat.mul_le_mul_right _ g
    unfold dist at *
    omega
  · exact hl
  · exfalso
    have g := magOf_gap b
    have m1 : magOf (b + 1) * d ≤ magOf r * d := Nat.mul_le_mul_right _ (magOf_le (by omega))
    have m2 : magOf b * d ≤ magOf (b + 1) * d := Nat.mul_le_mul_right _ (magOf_le (by omega))
    have g' : magOf (b + 1) * d ≤ 2 ^ 53 * (magOf (b + 1) * d - magOf b * d) := by
      rw [← Nat.sub_mul, ← Nat.mul_assoc]
      exact Nat.mul_le_mul_right _ g
    unfold dist at *
    omega

end Kdl
