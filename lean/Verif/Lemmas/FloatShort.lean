import Verif.Lemmas.FloatShow
/-
Printed floats are as short as possible, and as near as possible.
-/

namespace Kdl
open Spec

theorem dist_mul (a b k : Nat) : dist a b * k = dist (a * k) (b * k) := by
  unfold dist
  rw [Nat.add_mul, Nat.sub_mul, Nat.sub_mul]

/-- Distances in terms of the model's fractions. -/
theorem asNear_iff {x : F64} {c c' : Nat} {e e' : Int} : AsNear x c e c' e' ↔
    dist (decNum c e) (mag x * decDen e) * decDen e' ≤ dist (decNum c' e') (mag x * decDen e') * decDen e := Iff.rfl

/-- Nearness does not depend on the exponent. -/
theorem near_congr {v n1 d1 n2 d2 q dq : Nat} (h1 : 0 < d1) (h : n1 * d2 = n2 * d1)
    (hn : dist n1 (v * d1) * dq ≤ dist q (v * dq) * d1) : dist n2 (v * d2) * dq ≤ dist q (v * dq) * d2 := by
  have e1 : dist n1 (v * d1) * d2 = dist n2 (v * d2) * d1 := by
    rw [dist_mul, dist_mul, h]
    congr 1
    ring
  refine Nat.le_of_mul_le_mul_right ?_ h1
  calc dist n2 (v * d2) * dq * d1 = dist n1 (v * d1) * dq * d2 := by rw [Nat.mul_right_comm, ← e1]; ring
    _ ≤ dist q (v * dq) * d1 * d2 := Nat.mul_le_mul_right _ hn
    _ = dist q (v * dq) * d2 * d1 := by ring

/-- See `near_congr`. -/
theorem near_congr_right {v n d q1 e1 q2 e2 : Nat} (h1 : 0 < e1) (h : q1 * e2 = q2 * e1)
    (hn : dist n (v * d) * e1 ≤ dist q1 (v * e1) * d) : dist n (v * d) * e2 ≤ dist q2 (v * e2) * d := by
  have e : dist q1 (v * e1) * e2 = dist q2 (v * e2) * e1 := by
    rw [dist_mul, dist_mul, h]
    congr 1
    ring
  refine Nat.le_of_mul_le_mul_right ?_ h1
  calc dist n (v * d) * e2 * e1 = dist n (v * d) * e1 * e2 := by ring
    _ ≤ dist q1 (v * e1) * d * e2 := Nat.mul_le_mul_right _ hn
    _ = dist q2 (v * e2) * d * e1 := by rw [Nat.mul_right_comm, e]; ring

/-- Below the magnitude, a smaller number is farther. -/
theorem near_below {v n d q dq : Nat} (hd : 0 < d) (h : q * d ≤ n * dq) (hn : n ≤ v * d) :
    dist n (v * d) * dq ≤ dist q (v * dq) * d := by
  have h1 : n * dq ≤ v * d * dq := Nat.mul_le_mul_right _ hn
  have e : v * dq * d = v * d * dq := by ring
  rw [dist_mul, dist_mul, e]
  unfold dist
  omega

/-- Above the magnitude, a larger number is farther. -/
theorem near_above {v n d q dq : Nat} (h : n * dq ≤ q * d) (hn : v * d ≤ n) :
    dist n (v * d) * dq ≤ dist q (v * dq) * d := by
  have h1 : v * d * dq ≤ n * dq := Nat.mul_le_mul_right _ hn
  have e : v * dq * d = v * d * dq := by ring
  rw [dist_mul, dist_mul, e]
  unfold dist
  omega

/-- The candidate that is picked is the nearest of all decimals with as many digits that are read back. -/
theorem pickDigits_near {v b : Nat} (hb : b ≤ infBits) (h0 : 0 < v) (hv : magOf b = v) {n : Nat} (hn : 0 < n)
    {c : Nat} {e : Int} (hp : pickDigits v b n = some (c, e)) {c' : Nat} {e' : Int} (hc : c' < 10 ^ n)
    (hr : decBits c' e' = b) :
    dist (decNum c e) (v * decDen e) * decDen e' ≤ dist (decNum c' e') (v * decDen e') * decDen e := by
  obtain ⟨p1, _, p3⟩ := pickDigits_some hp
  obtain ⟨h1, h2⟩ := digitsLow_near v n
  have hself := nearestBits_self hb hv (-decShift v n)
  have d1 := decDen_pos (-decShift v n)
  have d2 := decDen_pos e'
  have split := decimal_split h0 hn hc e'
  subst p1
  rcases split with h | h
  · have below := near_below d1 h h1
    have back : decBits (digitsLow v n) (-decShift v n) = b := by
      have a1 := nearestBits_mono d2 d1 h
      have a2 := nearestBits_mono d1 d1 (Nat.mul_le_mul_right (decDen (-decShift v n)) h1)
      unfold decBits at *
      omega
    rcases p3 with ⟨rfl, _⟩ | ⟨rfl, p⟩
    · exact below
    · exact Nat.le_trans (Nat.mul_le_mul_right _ (p back)) below
  · have above := near_above h (Nat.le_of_lt h2)
    have back : decBits (digitsLow v n + 1) (-decShift v n) = b := by
      have a1 := nearestBits_mono d1 d2 h
      have a2 := nearestBits_mono d1 d1 (Nat.mul_le_mul_right (decDen (-decShift v n)) (Nat.le_of_lt h2))
      unfold decBits at *
      omega
    rcases p3 with ⟨rfl, p⟩ | ⟨rfl, _⟩
    · exact Nat.le_trans (Nat.mul_le_mul_right _ (p back)) above
    · exact above

theorem decBits_zero_left (e : Int) : decBits 0 e = 0 := by
  unfold decBits decNum
  rw [Nat.zero_mul, Nat.zero_mul]
  unfold nearestBits roundDiv
  simp

/-- The printed literal is as short as possible, and of those as near as possible. -/
theorem showFloat_short {x : F64} (h : x.isFinite = true) : ∃ p : FloatNum, p.Ok ∧ showFloat x = p.text ∧
    FloatShape p.text ∧ (∀ c ∈ p.text, c ≠ '_') ∧ Denotes p x ∧
    (∀ q, Denotes q x → ∀ k, Short q.coeff k → Short p.coeff k) ∧
    (∀ q, Denotes q x → (∀ k, Short p.coeff k → Short q.coeff k) →
      AsNear x p.coeff p.exponent q.coeff q.exponent) := by
  obtain ⟨p, t, c, e, ht, hp, hd, hs, hz⟩ := showFloat_printed h
  refine ⟨p, hp.ok, by rw [ht, hp.text], hp.shape, hp.plain, hp.denotes hd, ?_, ?_⟩
  all_goals
    have hb := Nat.le_of_lt (F64.finite_iff.mp h)
    have hv : magOf (x.bits.val % 2 ^ 63) = mag x := magOf_mag
    obtain ⟨i, hi1, hi2⟩ := hp.value
  · intro q hq k hk
    have hqb := nearestFloat_bits hq.2
    rcases Nat.eq_zero_or_pos (mag x) with h0 | h0
    · exact ⟨0, 0, Nat.pow_pos (by decide), by rw [hi1, hz h0, Nat.zero_mul, Nat.zero_mul]⟩
    · obtain ⟨c', j', hc', hcq⟩ := hk
      have hr : decBits c' (q.exponent + j') = x.bits.val % 2 ^ 63 := by
        rw [← hqb, hcq, decBits_shift]
      obtain ⟨n, j, c1, e1, n1, n2, s1, s2, s3, s4, s5, s6, s7, s8⟩ := shortest_spec hb h0 hv
      rw [hs h0] at s1
      obtain ⟨rfl, rfl⟩ : c = c1 ∧ e = e1 := by simpa using s1
      rcases Nat.eq_zero_or_pos k with rfl | hk0
      · exfalso
        have : c' = 0 := by omega
        rw [this, decBits_zero_left] at hr
        rw [← hr] at hv
        have hz0 : magOf 0 = 0 := by decide +kernel
        omega
      · obtain ⟨r, hr⟩ := pickDigits_of_decimal hb h0 hv hk0 hc' hr
        have hnk : n ≤ k := by
          rcases Nat.lt_or_ge k n with hlt | hge
          · rw [s8 k hlt hk0] at hr
            cases hr
          · exact hge
        exact ⟨c, i, Nat.lt_of_lt_of_le s3 (Nat.pow_le_pow_right (by decide) hnk), hi1⟩
  · intro q hq hk
    have hqb := nearestFloat_bits hq.2
    rw [asNear_iff]
    rcases Nat.eq_zero_or_pos (mag x) with h0 | h0
    · have e0 : decNum p.coeff p.exponent = 0 := by
        rw [hi1, hz h0]
        unfold decNum
        simp
      rw [h0, e0]
      unfold dist
      simp
    · obtain ⟨n, j, c1, e1, n1, n2, s1, s2, s3, s4, s5, s6, s7, s8⟩ := shortest_spec hb h0 hv
      rw [hs h0] at s1
      obtain ⟨rfl, rfl⟩ : c = c1 ∧ e = e1 := by simpa using s1
      obtain ⟨c', j', hc', hcq⟩ := hk n ⟨c, i, s3, hi1⟩
      have hr : decBits c' (q.exponent + j') = x.bits.val % 2 ^ 63 := by
        rw [← hqb, hcq, decBits_shift]
      have hnear := pickDigits_near hb h0 hv n1 s5 hc' hr
      have a1 : decNum (c * 10 ^ j) (e - j) * decDen e = decNum c e * decDen (e - j) := by
        have := decimal_shift c j (e - j)
        rwa [Int.sub_add_cancel] at this
      have a2 : decNum p.coeff p.exponent * decDen e = decNum c e * decDen p.exponent := by
        have := decimal_shift c i (e - i)
        rw [Int.sub_add_cancel] at this
        rw [hi1, hi2]
        exact this
      have b1 : decNum q.coeff q.exponent * decDen (q.exponent + j') =
          decNum c' (q.exponent + j') * decDen q.exponent := by
        rw [hcq]
        exact decimal_shift _ _ _
      have n1' := near_congr (decDen_pos _) a1 hnear
      have n2' := near_congr (decDen_pos _) a2.symm n1'
      exact near_congr_right (decDen_pos _) b1.symm n2'

end Kdl
