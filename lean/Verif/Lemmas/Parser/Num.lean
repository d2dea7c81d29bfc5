import Verif.Lemmas.Parser.Lossless
import Verif.Lemmas.Parser.Fix
import Verif.Spec.Literals
/-
Reading numbers.
-/

namespace Kdl
open Spec

/-! ### Digits -/

theorem Char.eq_of_toNat {c d : Char} (h : c.toNat = d.toNat) : c = d := by
  have := congrArg Char.ofNat h
  simpa [Char.ofNat_toNat] using this

theorem isHexDigit_cases {c : Char} (h : isHexDigit c = true) :
    c ∈ "0123456789abcdefABCDEF".toList := by
  unfold isHexDigit isDecDigit at h
  simp only [Bool.or_eq_true, Bool.and_eq_true, decide_eq_true_eq] at h
  have key : ∀ n : Nat, n < 128 → c.toNat = n → c = Char.ofNat n := by
    intro n _ hn; rw [← hn, Char.ofNat_toNat]
  have hlt : c.toNat < 128 := by omega
  have hc : c = Char.ofNat c.toNat := (Char.ofNat_toNat c).symm
  generalize c.toNat = n at *
  subst hc
  have : ∀ n, n < 128 → ((48 ≤ n ∧ n ≤ 57) ∨ (65 ≤ n ∧ n ≤ 70)) ∨ (97 ≤ n ∧ n ≤ 102) →
      Char.ofNat n ∈ "0123456789abcdefABCDEF".toList := by decide
  exact this n hlt h

theorem digit_eq_digitVal {c : Char} (h : isHexDigit c = true) : digit c = some (digitVal c) := by
  have : ∀ c ∈ "0123456789abcdefABCDEF".toList, digit c = some (digitVal c) := by decide
  exact this c (isHexDigit_cases h)

theorem digit_some {c : Char} {d : Nat} (h : digit c = some d) :
    c ∈ "0123456789abcdefABCDEF".toList := by
  unfold digit at h
  simp only at h
  split at h
  · rename_i h1
    have : c ∈ "0123456789abcdef".toList := List.idxOf_lt_length_iff.mp h1
    exact (by decide : ∀ c ∈ "0123456789abcdef".toList, c ∈ "0123456789abcdefABCDEF".toList) c this
  · split at h
    · rename_i h1
      have : c ∈ "0123456789ABCDEF".toList := List.idxOf_lt_length_iff.mp h1
      exact (by decide : ∀ c ∈ "0123456789ABCDEF".toList, c ∈ "0123456789abcdefABCDEF".toList) c this
    · cases h

/-- The model's digit classes are the digits of the spec. -/
theorem isDigit_iff {c : Char} :
    (IsDigit 10 c ↔ isDecDigit c = true) ∧ (IsDigit 16 c ↔ isHexDigit c = true) ∧
    (IsDigit 8 c ↔ isOctDigit c = true) ∧ (IsDigit 2 c ↔ isBinDigit c = true) := by
  have h1 : ∀ c ∈ "0123456789abcdefABCDEF".toList,
      ((isDecDigit c = true ↔ (digit c).getD 99 < 10) ∧ (isHexDigit c = true ↔ (digit c).getD 99 < 16) ∧
       (isOctDigit c = true ↔ (digit c).getD 99 < 8) ∧ (isBinDigit c = true ↔ (digit c).getD 99 < 2)) := by
    decide
  have sub : (isDecDigit c = true ∨ isHexDigit c = true ∨ isOctDigit c = true ∨ isBinDigit c = true) →
      c ∈ "0123456789abcdefABCDEF".toList := by
    intro h
    apply isHexDigit_cases
    rcases h with h | h | h | h
    · simp [isHexDigit, h]
    · exact h
    · unfold isOctDigit at h
      simp only [Bool.and_eq_true, decide_eq_true_eq] at h
      simp only [isHexDigit, isDecDigit, Bool.or_eq_true, Bool.and_eq_true, decide_eq_true_eq]
      omega
    · unfold isBinDigit at h
      simp only [Bool.or_eq_true, beq_iff_eq] at h
      simp only [isHexDigit, isDecDigit, Bool.or_eq_true, Bool.and_eq_true, decide_eq_true_eq]
      omega
  have conv : ∀ radix : Nat, radix ≤ 99 → ∀ c, IsDigit radix c ↔ (digit c).getD 99 < radix := by
    intro radix hr c
    unfold IsDigit
    cases digit c with
    | none => simp; omega
    | some d => simp
  simp only [conv 10 (by omega), conv 16 (by omega), conv 8 (by omega), conv 2 (by omega)]
  have mem : (digit c).getD 99 < 99 → c ∈ "0123456789abcdefABCDEF".toList := by
    intro h
    cases hd : digit c with
    | none => rw [hd] at h; simp at h
    | some d => exact digit_some hd
  refine ⟨⟨fun h => ?_, fun h => ?_⟩, ⟨fun h => ?_, fun h => ?_⟩, ⟨fun h => ?_, fun h => ?_⟩,
    ⟨fun h => ?_, fun h => ?_⟩⟩
  · exact (h1 c (mem (by omega))).1.mpr h
  · exact (h1 c (sub (Or.inl h))).1.mp h
  · exact (h1 c (mem (by omega))).2.1.mpr h
  · exact (h1 c (sub (Or.inr (Or.inl h)))).2.1.mp h
  · exact (h1 c (mem (by omega))).2.2.1.mpr h
  · exact (h1 c (sub (Or.inr (Or.inr (Or.inl h))))).2.2.1.mp h
  · exact (h1 c (mem (by omega))).2.2.2.mpr h
  · exact (h1 c (sub (Or.inr (Or.inr (Or.inr h))))).2.2.2.mp h

theorem litVal_hex {radix : Nat} : ∀ {ds : Str}, (∀ x ∈ ds, x = '_' ∨ isHexDigit x = true) →
    ∀ acc, (dropUnderscores ds).foldl (fun acc c => acc * radix + digitVal c) acc =
      acc * radix ^ numDigits ds + litVal radix ds
  | [], _, acc => by simp [dropUnderscores, numDigits, litVal]
  | c :: cs, h, acc => by
    have ih := litVal_hex (radix := radix) (ds := cs) (fun x hx => h x (List.mem_cons_of_mem _ hx))
    by_cases hc : c = '_'
    · subst hc
      have := ih acc
      simpa [dropUnderscores, numDigits, litVal] using this
    · have hd := (h c (List.mem_cons_self ..)).resolve_left hc
      have e1 : dropUnderscores (c :: cs) = c :: dropUnderscores cs := by simp [dropUnderscores, hc]
      have e2 : numDigits (c :: cs) = numDigits cs + 1 := by simp [numDigits, hc]
      rw [e1, List.foldl_cons, ih, e2]
      simp only [litVal, hc, if_false, digit_eq_digitVal hd, Option.getD_some]
      rw [Nat.pow_succ]
      simp only [Nat.add_mul, Nat.mul_assoc, Nat.add_assoc]
      rw [Nat.mul_comm radix (radix ^ numDigits cs)]

theorem digitsVal_litVal {radix : Nat} {ds : Str} (h : ∀ x ∈ ds, x = '_' ∨ isHexDigit x = true) :
    digitsVal radix (dropUnderscores ds) = litVal radix ds := by
  have := litVal_hex (radix := radix) h 0
  simpa [digitsVal] using this

/-! ### Digit groups -/

theorem mem_takeWhile {f : Char → Bool} : ∀ {l : Str} {x : Char}, x ∈ l.takeWhile f → f x = true
  | [], x, h => by simp at h
  | a :: l, x, h => by
    by_cases ha : f a = true
    · rw [List.takeWhile_cons_of_pos ha] at h
      rcases List.mem_cons.mp h with rfl | h
      · exact ha
      · exact mem_takeWhile h
    · rw [List.takeWhile_cons_of_neg ha] at h
      cases h

/-- A character of a digit group after the first. -/
def isGrp (f : Char → Bool) (c : Char) : Bool := f c || c == '_'

theorem rep0_grp {f : Char → Bool} {p : P Str}
    (hp : ∀ s, (∀ c q, s = c :: q → isGrp f c = false) → p s = .back)
    (hok : ∀ c q, isGrp f c = true → ∃ t r, p (c :: q) = .ok t r ∧ t ≠ [] ∧ c :: q = t ++ r ∧
      ∀ x ∈ t, isGrp f x = true) (s : Str) :
    ∃ l, rep0 p s = .ok l (s.dropWhile (isGrp f)) ∧ l.flatten = s.takeWhile (isGrp f) := by
  induction hn : s.length using Nat.strongRecOn generalizing s with
  | ind n ih =>
    cases s with
    | nil => exact ⟨[], rep0_nil (hp [] (by simp)), rfl⟩
    | cons c q =>
      by_cases hc : isGrp f c = true
      · obtain ⟨t, r, h1, hne, h2, h3⟩ := hok c q hc
        have hlt : r.length < (c :: q).length := by
          rw [h2]
          cases t with
          | nil => exact absurd rfl hne
          | cons a t => simp; omega
        obtain ⟨l, h4, h5⟩ := ih r.length (by omega) r rfl
        refine ⟨t :: l, ?_, ?_⟩
        · rw [h2, List.dropWhile_append_of_pos (by simpa using h3)]
          exact rep0_cons (h2 ▸ h1) (h2 ▸ hlt) h4
        · rw [h2, List.takeWhile_append_of_pos (by simpa using h3)]
          simp [h5]
      · refine ⟨[], ?_, ?_⟩
        · rw [List.dropWhile_cons_of_neg hc]
          refine rep0_nil (hp _ ?_)
          rintro c' q' ⟨⟩
          simpa using hc
        · rw [List.takeWhile_cons_of_neg hc]; rfl

theorem rep0_digits {f : Char → Bool} (hu : f '_' = false) (s : Str) :
    ∃ l, rep0 (takeP (lit ['_']) <+> takeWhile1 f) s = .ok l (s.dropWhile (isGrp f)) ∧
      l.flatten = s.takeWhile (isGrp f) := by
  apply rep0_grp
  · intro s hs
    rw [alt_right]
    · rw [takeWhile1_back]
      intro c q e
      have := hs c q e
      simp [isGrp] at this
      simpa using this.1
    · apply takeP_back
      rw [lit_back]
      rintro r e
      have := hs _ _ e
      simp [isGrp] at this
  · intro c q hc
    by_cases h : c = '_'
    · subst h
      refine ⟨['_'], q, ?_, by simp, rfl, by simp [isGrp]⟩
      exact alt_left (takeP_eq (t := ['_']) (lit_append ['_'] q))
    · have hf : f c = true := by simpa [isGrp, h] using hc
      refine ⟨(c :: q).takeWhile f, (c :: q).dropWhile f, ?_, ?_, List.takeWhile_append_dropWhile.symm, ?_⟩
      · rw [alt_right (takeP_back (lit_cons_ne (Ne.symm h)))]
        simp [takeWhile1, List.takeWhile_cons_of_pos hf]
      · simp [List.takeWhile_cons_of_pos hf]
      · intro x hx
        have := mem_takeWhile hx
        simp [isGrp, this]

/-- `digit_group` takes the longest run of digits and underscores, if it starts
with a digit. -/
theorem digitGroup_eq {f : Char → Bool} (hu : f '_' = false) {c : Char} {q : Str} (hc : f c = true) :
    digitGroup f (c :: q) =
      .ok (dropUnderscores ((c :: q).takeWhile (isGrp f))) ((c :: q).dropWhile (isGrp f)) := by
  obtain ⟨l, h1, h2⟩ := rep0_digits hu ((c :: q).dropWhile f)
  have hsplit : (c :: q).takeWhile f ++ (c :: q).dropWhile f = c :: q := List.takeWhile_append_dropWhile
  have hall : ∀ x ∈ (c :: q).takeWhile f, isGrp f x = true := by
    intro x hx
    simp [isGrp, mem_takeWhile hx]
  have hdrop : (c :: q).dropWhile (isGrp f) = ((c :: q).dropWhile f).dropWhile (isGrp f) := by
    conv => lhs; rw [← hsplit]
    exact List.dropWhile_append_of_pos hall
  have htake : (c :: q).takeWhile (isGrp f) = (c :: q).takeWhile f ++ ((c :: q).dropWhile f).takeWhile (isGrp f) := by
    conv => lhs; rw [← hsplit]
    exact List.takeWhile_append_of_pos hall
  unfold digitGroup
  rw [bind_eq (a := (c :: q).takeWhile f) (r := (c :: q).dropWhile f)
    (by simp [takeWhile1, List.takeWhile_cons_of_pos hc]), bind_eq h1, pure_eq, hdrop, htake, h2]
  congr 1
  unfold dropUnderscores
  rw [List.filter_append]
  congr 1
  symm
  rw [List.filter_eq_self]
  intro x hx
  have := mem_takeWhile hx
  have hne : x ≠ '_' := by
    rintro rfl
    rw [hu] at this; cases this
  simpa using hne

theorem digitGroup_back {f : Char → Bool} {s : Str} (h : ∀ c q, s = c :: q → f c = false) :
    digitGroup f s = .back := bind_back (takeWhile1_back.mpr (by intro c q e; simpa using h c q e))

theorem isDecDigit_us : isDecDigit '_' = false := by decide
theorem isHexDigit_us : isHexDigit '_' = false := by decide
theorem isOctDigit_us : isOctDigit '_' = false := by decide
theorem isBinDigit_us : isBinDigit '_' = false := by decide

theorem rep0_bin (s : Str) :
    ∃ l, rep0 (takeP (lit ['0'] <+> lit ['1'] <+> lit ['_'])) s = .ok l (s.dropWhile (isGrp isBinDigit)) ∧
      l.flatten = s.takeWhile (isGrp isBinDigit) := by
  apply rep0_grp
  · intro s hs
    apply takeP_back
    have : ∀ a : Char, isGrp isBinDigit a = true → lit [a] s = .back := by
      intro a ha
      rw [lit_back]
      rintro r e
      have := hs _ _ e
      rw [ha] at this; cases this
    rw [alt_right (this '0' (by decide)), alt_right (this '1' (by decide))]
    exact this '_' (by decide)
  · intro c q hc
    refine ⟨[c], q, ?_, by simp, rfl, by simpa using hc⟩
    refine takeP_eq (t := [c]) (a := ()) (p := _) ?_
    have : c = '0' ∨ c = '1' ∨ c = '_' := by
      simp only [isGrp, isBinDigit, Bool.or_eq_true, beq_iff_eq] at hc
      rcases hc with (h | h) | h
      · exact Or.inl (Char.eq_of_toNat h)
      · exact Or.inr (Or.inl (Char.eq_of_toNat h))
      · exact Or.inr (Or.inr h)
    rcases this with rfl | rfl | rfl
    · exact alt_left (lit_one _ _)
    · rw [List.cons_append, alt_right (lit_cons_ne (by decide))]; exact alt_left (lit_one _ _)
    · rw [List.cons_append, alt_right (lit_cons_ne (by decide)), alt_right (lit_cons_ne (by decide))]
      exact lit_one _ _

theorem binGroup_eq {c : Char} {q : Str} (hc : isBinDigit c = true) :
    (do
      let x ← takeP (lit ['0'] <+> lit ['1'])
      let xs ← rep0 (takeP (lit ['0'] <+> lit ['1'] <+> lit ['_']))
      return x ++ dropUnderscores xs.flatten : P Str) (c :: q) =
      .ok (dropUnderscores ((c :: q).takeWhile (isGrp isBinDigit))) ((c :: q).dropWhile (isGrp isBinDigit)) := by
  have hg : isGrp isBinDigit c = true := by simp [isGrp, hc]
  have hne : c ≠ '_' := by rintro rfl; rw [isBinDigit_us] at hc; cases hc
  obtain ⟨l, h1, h2⟩ := rep0_bin q
  have h0 : takeP (lit ['0'] <+> lit ['1']) (c :: q) = .ok [c] q := by
    refine takeP_eq (t := [c]) (a := ()) ?_
    have : c = '0' ∨ c = '1' := by
      simp only [isBinDigit, Bool.or_eq_true, beq_iff_eq] at hc
      exact hc.imp Char.eq_of_toNat Char.eq_of_toNat
    rcases this with rfl | rfl
    · exact alt_left (lit_one _ _)
    · rw [List.cons_append, alt_right (lit_cons_ne (by decide))]; exact lit_one _ _
  rw [bind_eq h0, bind_eq h1, pure_eq, List.dropWhile_cons_of_pos hg, List.takeWhile_cons_of_pos hg, h2]
  simp [dropUnderscores, hne]

theorem binGroup_back {s : Str} (h : ∀ c q, s = c :: q → isBinDigit c = false) :
    (do
      let x ← takeP (lit ['0'] <+> lit ['1'])
      let xs ← rep0 (takeP (lit ['0'] <+> lit ['1'] <+> lit ['_']))
      return x ++ dropUnderscores xs.flatten : P Str) s = .back := by
  apply bind_back
  apply takeP_back
  have : ∀ a : Char, isBinDigit a = true → lit [a] s = .back := by
    intro a ha
    rw [lit_back]
    rintro r e
    have := h _ _ e
    rw [ha] at this; cases this
  rw [alt_right (this '0' (by decide))]
  exact this '1' (by decide)

/-! ### What may follow a value -/

/-- The text `r` may directly follow a value. -/
def Ends (r : Str) : Prop := ∃ u q, valueTerminator r = .ok u q

/-- The text `r` is empty or starts with a character that no identifier or number
contains. -/
def Stop (r : Str) : Prop := ∀ c q, r = c :: q → isDisallowedIdentChar c = true

theorem isDisallowedIdentChar_space {c : Char} (h : isUnicodeSpace c = true) :
    isDisallowedIdentChar c = true := by simp [isDisallowedIdentChar, h]

theorem isDisallowedIdentChar_newline {c : Char} (h : newlineStart c) :
    isDisallowedIdentChar c = true := by
  unfold newlineStart at h
  rcases h with rfl | rfl | rfl | rfl | rfl | rfl | rfl <;> decide

theorem Ends.stop {r : Str} (h : Ends r) : Stop r := by
  obtain ⟨u, q, h⟩ := h
  rintro c t rfl
  unfold valueTerminator at h
  simp only [alt_ok, eof_ok, lit_ok, List.cons_append, List.nil_append] at h
  rcases h with ⟨h, _⟩ | ⟨_, h | ⟨_, h | ⟨_, h | ⟨_, h | ⟨_, h | ⟨_, h⟩⟩⟩⟩⟩⟩
  · cases h
  · cases h; decide
  · cases h; decide
  · cases h; decide
  · cases h; decide
  · obtain ⟨c', q', h1, h2⟩ := nodeSpace_head h
    cases h1
    rcases h2 with h2 | rfl | rfl
    · exact isDisallowedIdentChar_space h2
    · decide
    · decide
  · obtain ⟨c', q', h1, h2⟩ := nodeTerminator_head h
    cases h1
    rcases h2 with rfl | h2 | ⟨rfl, _⟩
    · decide
    · exact isDisallowedIdentChar_newline h2
    · decide

theorem Ends.check {r : Str} (h : Ends r) : valueTerminatorCheck r = .ok () r := by
  obtain ⟨u, q, h⟩ := h
  exact cutErr_eq (peek_eq h)

theorem Ends.nil : Ends [] := ⟨(), [], rfl⟩

theorem check_ok {r q : Str} {u : Unit} (h : valueTerminatorCheck r = .ok u q) : Ends r ∧ q = r := by
  unfold valueTerminatorCheck at h
  rw [cutErr_ok, peek_ok] at h
  obtain ⟨rfl, q', h⟩ := h
  exact ⟨⟨_, _, h⟩, rfl⟩

/-! ### Signs -/

theorem signum_none {c : Char} {q : Str} (h1 : c ≠ '+') (h2 : c ≠ '-') :
    signum (c :: q) = .ok true (c :: q) := by
  unfold signum
  rw [bind_eq (a := none) (r := c :: q)]
  · rfl
  · apply opt_none
    rw [alt_right (bind_back (lit_cons_ne (Ne.symm h1)))]
    exact bind_back (lit_cons_ne (Ne.symm h2))

theorem signum_nil : signum [] = .ok true [] := rfl
theorem signum_plus (q : Str) : signum ('+' :: q) = .ok true q := rfl
theorem signum_minus (q : Str) : signum ('-' :: q) = .ok false q := rfl

theorem signum_ok {s r : Str} {b : Bool} (h : signum s = .ok b r) :
    ∃ sg k, Sign sg k ∧ s = sg ++ r ∧ (b = true ↔ k = 1) := by
  cases s with
  | nil => rw [signum_nil] at h; cases h; exact ⟨[], 1, .none, rfl, by simp⟩
  | cons c q =>
    by_cases h1 : c = '+'
    · subst h1; rw [signum_plus] at h; cases h; exact ⟨['+'], 1, .plus, rfl, by simp⟩
    · by_cases h2 : c = '-'
      · subst h2; rw [signum_minus] at h; cases h; exact ⟨['-'], -1, .minus, rfl, by simp⟩
      · rw [signum_none h1 h2] at h; cases h; exact ⟨[], 1, .none, rfl, by simp⟩

theorem signum_sign {sg : Str} {k : Int} (h : Sign sg k) {c : Char} {q : Str} (h1 : c ≠ '+')
    (h2 : c ≠ '-') : ∃ b, signum (sg ++ c :: q) = .ok b (c :: q) ∧ (b = true ↔ k = 1) := by
  cases h with
  | none => exact ⟨true, signum_none h1 h2, by simp⟩
  | plus => exact ⟨true, signum_plus _, by simp⟩
  | minus => exact ⟨false, signum_minus _, by simp⟩

/-! ### Magnitudes -/

theorem fromStrRadix_ok {radix : Nat} {s : Str} {x : I128} (h : fromStrRadix radix s = some x) :
    x.val = digitsVal radix s := by
  unfold fromStrRadix I128.ofInt? at h
  split at h
  · cases h; rfl
  · cases h

theorem fromStrRadix_some {radix : Nat} {s : Str} (h : (digitsVal radix s : Int) ≤ i128Max) :
    ∃ x, fromStrRadix radix s = some x ∧ x.val = digitsVal radix s := by
  unfold fromStrRadix I128.ofInt?
  rw [dif_pos ⟨by unfold i128Min; omega, h⟩]
  exact ⟨_, rfl, rfl⟩

theorem fromStrRadix_none {radix : Nat} {s : Str} (h : ¬ (digitsVal radix s : Int) ≤ i128Max) :
    fromStrRadix radix s = none := by
  unfold fromStrRadix I128.ofInt?
  rw [dif_neg (fun h' => h h'.2)]

theorem mapOpt_none {α β : Type} {p : P α} {f : α → Option β} {s r : Str} {a : α}
    (h : p s = .ok a r) (hf : f a = none) : mapOpt p f s = .back := by
  unfold mapOpt
  rw [bind_eq h]
  simp only [hf]
  rfl

theorem mapOpt_back {α β : Type} {p : P α} {f : α → Option β} {s : Str}
    (h : p s = .back) : mapOpt p f s = .back := bind_back h

theorem cutErr_back {α : Type} {p : P α} {s : Str} (h : p s = .back) : cutErr p s = .cut := by
  unfold cutErr
  rw [h]

/-- The digits `c :: ds` in the given base, up to `r`. -/
def Digits (f : Char → Bool) (c : Char) (ds : Str) : Prop :=
  f c = true ∧ ∀ x ∈ ds, isGrp f x = true

theorem take_digits {f : Char → Bool} {c : Char} {ds r : Str} (h : Digits f c ds)
    (hr : ∀ x q, r = x :: q → isGrp f x = false) :
    (c :: (ds ++ r)).takeWhile (isGrp f) = c :: ds ∧ (c :: (ds ++ r)).dropWhile (isGrp f) = r := by
  have hall : ∀ x ∈ c :: ds, isGrp f x = true := by
    intro x hx
    rcases List.mem_cons.mp hx with rfl | hx
    · simp [isGrp, h.1]
    · exact h.2 x hx
  have hr' : r.takeWhile (isGrp f) = [] ∧ r.dropWhile (isGrp f) = r := by
    cases r with
    | nil => exact ⟨rfl, rfl⟩
    | cons x q =>
      have := hr x q rfl
      simp [List.takeWhile_cons, List.dropWhile_cons, this]
  rw [← List.cons_append, List.takeWhile_append_of_pos hall, List.dropWhile_append_of_pos hall]
  simp [hr']

theorem isGrp_hex {f : Char → Bool} (hf : ∀ c, f c = true → isHexDigit c = true) {ds : Str}
    (h : ∀ x ∈ ds, isGrp f x = true) : ∀ x ∈ ds, x = '_' ∨ isHexDigit x = true := by
  intro x hx
  have := h x hx
  simp only [isGrp, Bool.or_eq_true, beq_iff_eq] at this
  exact this.symm.imp id (hf x)

theorem hex_of_dec {c : Char} (h : isDecDigit c = true) : isHexDigit c = true := by simp [isHexDigit, h]
theorem dec_of_oct {c : Char} (h : isOctDigit c = true) : isDecDigit c = true := by
  unfold isOctDigit at h
  unfold isDecDigit
  simp only [Bool.and_eq_true, decide_eq_true_eq] at *
  omega
theorem dec_of_bin {c : Char} (h : isBinDigit c = true) : isDecDigit c = true := by
  unfold isBinDigit at h
  unfold isDecDigit
  simp only [Bool.or_eq_true, beq_iff_eq, Bool.and_eq_true, decide_eq_true_eq] at *
  omega

theorem hex_not_disallowed {c : Char} (h : isHexDigit c = true) : isDisallowedIdentChar c = false := by
  have : ∀ c ∈ "0123456789abcdefABCDEF".toList, isDisallowedIdentChar c = false := by decide
  exact this c (isHexDigit_cases h)

theorem Stop.grp {f : Char → Bool} (hf : ∀ c, f c = true → isHexDigit c = true) {r : Str} (h : Stop r) :
    ∀ x q, r = x :: q → isGrp f x = false := by
  rintro x q rfl
  have h1 := h x q rfl
  cases hg : isGrp f x
  · rfl
  · simp only [isGrp, Bool.or_eq_true, beq_iff_eq] at hg
    rcases hg with hg | rfl
    · rw [hex_not_disallowed (hf x hg)] at h1; cases h1
    · exact absurd h1 (by decide)

/-- The result of reading a magnitude: the literal's value, or nothing when it is
too large. -/
def Reads (p : P I128) (s r : Str) (m : Nat) : Prop :=
  ((m : Int) ≤ i128Max → ∃ x : I128, p s = .ok x r ∧ x.val = m) ∧
  (¬ (m : Int) ≤ i128Max → p s = .back)

theorem reads_group {f : Char → Bool} {radix : Nat} (hu : f '_' = false)
    (hf : ∀ c, f c = true → isHexDigit c = true) {c : Char} {ds r : Str} (h : Digits f c ds)
    (hr : ∀ x q, r = x :: q → isGrp f x = false) :
    Reads (mapOpt (digitGroup f) (fromStrRadix radix)) (c :: (ds ++ r)) r (litVal radix (c :: ds)) ∧
    Reads (mapOpt (cutErr (digitGroup f)) (fromStrRadix radix)) (c :: (ds ++ r)) r
      (litVal radix (c :: ds)) := by
  have hg := digitGroup_eq (q := ds ++ r) hu h.1
  rw [(take_digits h hr).1, (take_digits h hr).2] at hg
  have hv := digitsVal_litVal (radix := radix) (ds := c :: ds)
    (isGrp_hex hf (by
      intro x hx
      rcases List.mem_cons.mp hx with rfl | hx
      · simp [isGrp, h.1]
      · exact h.2 x hx))
  rw [← hv]
  refine ⟨⟨fun hm => ?_, fun hm => ?_⟩, ⟨fun hm => ?_, fun hm => ?_⟩⟩
  · obtain ⟨x, h1, h2⟩ := fromStrRadix_some hm
    exact ⟨x, mapOpt_eq hg h1, h2⟩
  · exact mapOpt_none hg (fromStrRadix_none hm)
  · obtain ⟨x, h1, h2⟩ := fromStrRadix_some hm
    exact ⟨x, mapOpt_eq (cutErr_eq hg) h1, h2⟩
  · exact mapOpt_none (cutErr_eq hg) (fromStrRadix_none hm)

theorem reads_udecimal {c : Char} {ds r : Str} (h : Digits isDecDigit c ds)
    (hr : ∀ x q, r = x :: q → isGrp isDecDigit x = false) :
    Reads udecimal (c :: (ds ++ r)) r (litVal 10 (c :: ds)) :=
  (reads_group isDecDigit_us (fun _ => hex_of_dec) h hr).1

theorem reads_uhex {x c : Char} (hx : x = 'x' ∨ x = 'X') {ds r : Str} (h : Digits isHexDigit c ds)
    (hr : ∀ x q, r = x :: q → isGrp isHexDigit x = false) :
    Reads uhex ('0' :: x :: c :: (ds ++ r)) r (litVal 16 (c :: ds)) := by
  have e : uhex ('0' :: x :: c :: (ds ++ r)) =
      mapOpt (cutErr (digitGroup isHexDigit)) (fromStrRadix 16) (c :: (ds ++ r)) := by
    unfold uhex
    rcases hx with rfl | rfl <;> rfl
  have := (reads_group (radix := 16) isHexDigit_us (fun _ h => h) h hr).2
  unfold Reads
  rw [e]
  exact this

theorem reads_uoctal {x c : Char} (hx : x = 'o' ∨ x = 'O') {ds r : Str} (h : Digits isOctDigit c ds)
    (hr : ∀ x q, r = x :: q → isGrp isOctDigit x = false) :
    Reads uoctal ('0' :: x :: c :: (ds ++ r)) r (litVal 8 (c :: ds)) := by
  have e : uoctal ('0' :: x :: c :: (ds ++ r)) =
      mapOpt (cutErr (digitGroup isOctDigit)) (fromStrRadix 8) (c :: (ds ++ r)) := by
    unfold uoctal
    rcases hx with rfl | rfl <;> rfl
  have := (reads_group (radix := 8) isOctDigit_us (fun _ h => hex_of_dec (dec_of_oct h)) h hr).2
  unfold Reads
  rw [e]
  exact this

/-- Unlike in the other bases, a binary literal that is too large is a fatal
error at once. -/
theorem reads_ubinary {x c : Char} (hx : x = 'b' ∨ x = 'B') {ds r : Str} (h : Digits isBinDigit c ds)
    (hr : ∀ x q, r = x :: q → isGrp isBinDigit x = false) :
    ((litVal 2 (c :: ds) : Int) ≤ i128Max → ∃ v : I128, ubinary ('0' :: x :: c :: (ds ++ r)) = .ok v r ∧
      v.val = litVal 2 (c :: ds)) ∧
    (¬ (litVal 2 (c :: ds) : Int) ≤ i128Max → ubinary ('0' :: x :: c :: (ds ++ r)) = .cut) := by
  have hg := binGroup_eq (q := ds ++ r) h.1
  rw [(take_digits h hr).1, (take_digits h hr).2] at hg
  have hv := digitsVal_litVal (radix := 2) (ds := c :: ds)
    (isGrp_hex (f := isBinDigit) (fun _ h => hex_of_dec (dec_of_bin h)) (by
      intro x hx
      rcases List.mem_cons.mp hx with rfl | hx
      · simp [isGrp, h.1]
      · exact h.2 x hx))
  have e : ubinary ('0' :: x :: c :: (ds ++ r)) = cutErr (mapOpt
    (do
      let x ← takeP (lit ['0'] <+> lit ['1'])
      let xs ← rep0 (takeP (lit ['0'] <+> lit ['1'] <+> lit ['_']))
      return x ++ dropUnderscores xs.flatten)
    (fromStrRadix 2)) (c :: (ds ++ r)) := by
    unfold ubinary
    rcases hx with rfl | rfl <;> rfl
  rw [e, ← hv]
  refine ⟨fun hm => ?_, fun hm => ?_⟩
  · obtain ⟨x, h1, h2⟩ := fromStrRadix_some hm
    exact ⟨x, cutErr_eq (mapOpt_eq hg h1), h2⟩
  · exact cutErr_back (mapOpt_none hg (fromStrRadix_none hm))

/-! ### Signed numbers -/

theorem negatedP_eq {x : I128} (hx : 0 ≤ x.val) (s : Str) :
    ∃ y : I128, negatedP x s = .ok y s ∧ y.val = -x.val := by
  have h := x.property
  unfold negatedP I128.ofInt?
  rw [dif_pos (by unfold i128Min i128Max at *; omega)]
  exact ⟨_, rfl, rfl⟩

theorem signedP_ok {p : P I128} {s q r : Str} {b : Bool} {k : Int} {m : Nat} {x : I128}
    (h : signum s = .ok b q) (hk : b = true ↔ k = 1) (hk' : k = 1 ∨ k = -1)
    (hp : p q = .ok x r) (hx : x.val = m) : ∃ y : I128, signedP p s = .ok y r ∧ y.val = k * m := by
  unfold signedP
  rw [bind_eq h, bind_eq hp]
  cases b with
  | true =>
    have : k = 1 := hk.mp rfl
    exact ⟨x, rfl, by rw [hx, this]; omega⟩
  | false =>
    have : k = -1 := hk'.resolve_left (fun h => by have := hk.mpr h; cases this)
    obtain ⟨y, h1, h2⟩ := negatedP_eq (x := x) (by omega) r
    exact ⟨y, h1, by rw [h2, hx, this]; omega⟩

theorem signedP_back {p : P I128} {s q : Str} {b : Bool} (h : signum s = .ok b q)
    (hp : p q = .back) : signedP p s = .back := by
  unfold signedP
  rw [bind_eq h]
  exact bind_back hp

theorem signedP_cut {p : P I128} {s q : Str} {b : Bool} (h : signum s = .ok b q)
    (hp : p q = .cut) : signedP p s = .cut := by
  unfold signedP
  rw [bind_eq h]
  exact bind_cut hp

theorem Spec.Sign.cases {sg : Str} {k : Int} (h : Sign sg k) : k = 1 ∨ k = -1 := by
  cases h <;> simp

/-! ### Integer literals -/

/-- The four digit classes. -/
def baseDigit : Nat → Char → Bool
  | 2 => isBinDigit
  | 8 => isOctDigit
  | 10 => isDecDigit
  | _ => isHexDigit

theorem isDigit_baseDigit {pre : Str} {radix : Nat} (h : Base pre radix) {c : Char} :
    IsDigit radix c ↔ baseDigit radix c = true := by
  have := isDigit_iff (c := c)
  cases h <;> simp [baseDigit, this]

theorem digits_of {pre : Str} {radix : Nat} (h : Base pre radix) {c : Char} {ds : Str}
    (hc : IsDigit radix c) (hds : ∀ x ∈ ds, x = '_' ∨ IsDigit radix x) :
    Digits (baseDigit radix) c ds := by
  refine ⟨(isDigit_baseDigit h).mp hc, fun x hx => ?_⟩
  rcases hds x hx with rfl | hx
  · simp [isGrp]
  · simp [isGrp, (isDigit_baseDigit h).mp hx]

theorem digits_of' {pre : Str} {radix : Nat} (h : Base pre radix) {c : Char} {ds : Str}
    (hd : Digits (baseDigit radix) c ds) :
    IsDigit radix c ∧ ∀ x ∈ ds, x = '_' ∨ IsDigit radix x := by
  refine ⟨(isDigit_baseDigit h).mpr hd.1, fun x hx => ?_⟩
  have := hd.2 x hx
  simp only [isGrp, Bool.or_eq_true, beq_iff_eq] at this
  exact this.symm.imp id (isDigit_baseDigit h).mpr

/-- The decimal reader on text that starts (after a sign) with a digit: it reads a
number or backtracks, and what is left is what follows the digits. -/
theorem decimal_cases {s q : Str} {b : Bool} (h : signum s = .ok b q) :
    decimal s = .back ∨ ∃ x, decimal s = .ok x (q.dropWhile (isGrp isDecDigit)) := by
  cases hu : q with
  | nil =>
    subst hu
    exact Or.inl (signedP_back h (mapOpt_back (digitGroup_back (by simp))))
  | cons c q' =>
    subst hu
    by_cases hc : isDecDigit c = true
    · have hg := digitGroup_eq (q := q') isDecDigit_us hc
      cases hr : fromStrRadix 10 (dropUnderscores ((c :: q').takeWhile (isGrp isDecDigit))) with
      | none => exact Or.inl (signedP_back h (mapOpt_none hg hr))
      | some x =>
        have h1 : udecimal (c :: q') = .ok x ((c :: q').dropWhile (isGrp isDecDigit)) := mapOpt_eq hg hr
        have hx := fromStrRadix_ok hr
        obtain ⟨y, h2, _⟩ := signedP_ok (p := udecimal) (k := if b then 1 else -1)
          (m := digitsVal 10 (dropUnderscores ((c :: q').takeWhile (isGrp isDecDigit)))) h
          (by cases b <;> simp) (by cases b <;> simp) h1 hx
        exact Or.inr ⟨y, h2⟩
    · refine Or.inl (signedP_back h (mapOpt_back (digitGroup_back ?_)))
      rintro c' q'' ⟨⟩
      simpa using hc

/-- No float where the digits are not followed by a point or an exponent. -/
theorem float_back [FloatIO] {s q : Str} {b : Bool} (h : signum s = .ok b q)
    (hq : ∀ c r, q.dropWhile (isGrp isDecDigit) = c :: r → c ≠ '.' ∧ c ≠ 'e' ∧ c ≠ 'E') :
    floatValue s = .back := by
  unfold floatValue
  apply bind_back
  apply takeP_back
  have hdot : lit ['.'] (q.dropWhile (isGrp isDecDigit)) = .back := by
    rw [lit_back]
    intro r e
    exact (hq '.' r e).1 rfl
  rcases decimal_cases h with hd | ⟨x, hd⟩
  · rw [alt_right (p := floatExp) (bind_back hd)]
    exact bind_back hd
  · have h1 : floatExp s = .back := by
      unfold floatExp
      rw [bind_eq hd, bind_eq (opt_none (bind_back hdot))]
      apply bind_back
      rw [satisfy_back]
      intro c r e
      have := hq c r e
      simp [this.2]
    rw [alt_right h1]
    unfold floatFrac
    rw [bind_eq hd]
    exact bind_back hdot

theorem dec_facts {c : Char} (h : isHexDigit c = true) :
    c ≠ '+' ∧ c ≠ '-' ∧ c ≠ '.' ∧ c ≠ '#' ∧ c ≠ '"' ∧ c ≠ '(' ∧ c ≠ '/' ∧ c ≠ '\\' := by
  have : ∀ c ∈ "0123456789abcdefABCDEF".toList,
      c ≠ '+' ∧ c ≠ '-' ∧ c ≠ '.' ∧ c ≠ '#' ∧ c ≠ '"' ∧ c ≠ '(' ∧ c ≠ '/' ∧ c ≠ '\\' := by decide
  exact this c (isHexDigit_cases h)

/-- The prefixed readers on a text whose second character is `d`. -/
theorem prefixed_back {a d : Char} {q : Str} :
    ((d ≠ 'x' ∧ d ≠ 'X') → uhex (a :: d :: q) = .back) ∧
    ((d ≠ 'o' ∧ d ≠ 'O') → uoctal (a :: d :: q) = .back) ∧
    ((d ≠ 'b' ∧ d ≠ 'B') → ubinary (a :: d :: q) = .back) := by
  refine ⟨fun h => ?_, fun h => ?_, fun h => ?_⟩
  · unfold uhex
    refine bind_back (alt_right (lit_head_back (Or.inr h.1)) ▸ lit_head_back (Or.inr h.2))
  · unfold uoctal
    refine bind_back (alt_right (lit_head_back (Or.inr h.1)) ▸ lit_head_back (Or.inr h.2))
  · unfold ubinary
    refine bind_back (alt_right (lit_head_back (Or.inr h.1)) ▸ lit_head_back (Or.inr h.2))

theorem prefixed_back_one {a : Char} : uhex [a] = .back ∧ uoctal [a] = .back ∧ ubinary [a] = .back := by
  have h : ∀ d, lit ['0', d] [a] = .back := by
    intro d
    rw [lit_back]
    rintro r h
    have := congrArg List.length h
    simp at this
  refine ⟨?_, ?_, ?_⟩
  · unfold uhex; exact bind_back (alt_right (h _) ▸ h _)
  · unfold uoctal; exact bind_back (alt_right (h _) ▸ h _)
  · unfold ubinary; exact bind_back (alt_right (h _) ▸ h _)

/-- Outcome of reading an integer literal that denotes `v`. -/
def IntOut (s r : Str) (v : Int) : Prop :=
  (v.natAbs ≤ i128Max → ∃ i : I128, integerValue s = .ok (.integer i) r ∧ i.val = v) ∧
  (¬ v.natAbs ≤ i128Max → integerValue s = .back ∨ integerValue s = .cut)

theorem natAbs_sign {k : Int} (hk : k = 1 ∨ k = -1) (m : Nat) : (k * m).natAbs = m := by
  rcases hk with rfl | rfl <;> omega

theorem check_back {r : Str} (h : valueTerminator r = .back) : valueTerminatorCheck r = .cut := by
  unfold valueTerminatorCheck cutErr peek
  rw [h]

theorem valueTerminator_letter {x : Char} {q : Str}
    (hx : x = 'x' ∨ x = 'X' ∨ x = 'o' ∨ x = 'O') : valueTerminator (x :: q) = .back := by
  have hs : nodeSpace (x :: q) = .back := by
    apply nodeSpace_back_of
    · rintro c r ⟨⟩
      rcases hx with rfl | rfl | rfl | rfl <;> decide
    · rintro r ⟨⟩
      revert hx; decide
    · rintro r ⟨⟩
      revert hx; decide
  unfold valueTerminator
  have hl : ∀ a t, a ≠ 'x' → a ≠ 'X' → a ≠ 'o' → a ≠ 'O' → lit (a :: t) (x :: q) = .back := by
    intro a t h1 h2 h3 h4
    apply lit_cons_ne
    rcases hx with rfl | rfl | rfl | rfl <;> assumption
  rw [alt_right (eof_back.mpr (by simp)), alt_right (hl _ _ (by decide) (by decide) (by decide) (by decide)),
    alt_right (hl _ _ (by decide) (by decide) (by decide) (by decide)),
    alt_right (hl _ _ (by decide) (by decide) (by decide) (by decide)),
    alt_right (hl _ _ (by decide) (by decide) (by decide) (by decide)), alt_right hs]
  unfold nodeTerminator newline singleLineComment
  have h := fun a t h1 h2 h3 h4 => hl a t h1 h2 h3 h4
  rw [alt_right (hl _ _ (by decide) (by decide) (by decide) (by decide)), alt_right]
  · exact bind_back (hl _ _ (by decide) (by decide) (by decide) (by decide))
  · rw [alt_right (hl _ _ (by decide) (by decide) (by decide) (by decide)),
      alt_right (hl _ _ (by decide) (by decide) (by decide) (by decide)),
      alt_right (hl _ _ (by decide) (by decide) (by decide) (by decide)),
      alt_right (hl _ _ (by decide) (by decide) (by decide) (by decide)),
      alt_right (hl _ _ (by decide) (by decide) (by decide) (by decide)),
      alt_right (hl _ _ (by decide) (by decide) (by decide) (by decide)),
      alt_right (hl _ _ (by decide) (by decide) (by decide) (by decide))]
    exact hl _ _ (by decide) (by decide) (by decide) (by decide)

theorem intAlt_eq {p : P I128} {s r : Str} {x : I128} (h : p s = .ok x r) (hr : Ends r) :
    (do let i ← p; valueTerminatorCheck; return i : P I128) s = .ok x r := by
  rw [bind_eq h, bind_eq hr.check]; rfl

theorem integerValue_eq {s r : Str} {x : I128}
    (h : ((do let i ← hex; valueTerminatorCheck; return i) <+>
    (do let i ← octal; valueTerminatorCheck; return i) <+>
    (do let i ← binary; valueTerminatorCheck; return i) <+>
    (do let i ← decimal; valueTerminatorCheck; return i) : P I128) s = .ok x r) :
    integerValue s = .ok (.integer x) r := by
  unfold integerValue
  rw [bind_eq h]; rfl

/-- `0` followed by a base letter, read as a decimal number: the letter is in the
way. -/
theorem decimal_letter {sg : Str} {k : Int} (hs : Sign sg k) {x : Char} {q : Str}
    (hx : x = 'x' ∨ x = 'X' ∨ x = 'o' ∨ x = 'O') :
    (do let i ← decimal; valueTerminatorCheck; return i : P I128) (sg ++ '0' :: x :: q) = .cut := by
  obtain ⟨b, hsig, hbk⟩ := signum_sign hs (c := '0') (q := x :: q) (by decide) (by decide)
  have hrd := reads_udecimal (c := '0') (ds := []) (r := x :: q) ⟨by decide, by simp⟩ (by
    rintro y q' ⟨⟩
    rcases hx with rfl | rfl | rfl | rfl <;> decide)
  obtain ⟨v, h4, h5⟩ := hrd.1 (by decide)
  obtain ⟨y, h6, _⟩ := signedP_ok hsig hbk hs.cases h4 h5
  have h6' : decimal (sg ++ '0' :: x :: q) = .ok y (x :: q) := h6
  rw [bind_eq h6']
  exact bind_cut (check_back (valueTerminator_letter hx))

theorem int_hex {sg : Str} {k : Int} (hs : Sign sg k) {x c : Char} {ds r : Str}
    (hx : x = 'x' ∨ x = 'X') (hd : Digits isHexDigit c ds) (hr : Ends r) :
    IntOut (sg ++ '0' :: x :: c :: (ds ++ r)) r (k * litVal 16 (c :: ds)) := by
  unfold IntOut
  rw [natAbs_sign hs.cases]
  obtain ⟨b, hsig, hbk⟩ := signum_sign hs (c := '0') (q := x :: c :: (ds ++ r)) (by decide) (by decide)
  have hrd := reads_uhex hx hd (hr.stop.grp (fun _ h => h))
  refine ⟨fun hm => ?_, fun hm => ?_⟩
  · obtain ⟨v, h4, h5⟩ := hrd.1 hm
    obtain ⟨y, h6, h7⟩ := signedP_ok hsig hbk hs.cases h4 h5
    exact ⟨y, integerValue_eq (alt_left (intAlt_eq h6 hr)), h7⟩
  · right
    unfold integerValue
    apply bind_cut
    have h1 : hex (sg ++ '0' :: x :: c :: (ds ++ r)) = .back := signedP_back hsig (hrd.2 hm)
    have h2 : octal (sg ++ '0' :: x :: c :: (ds ++ r)) = .back :=
      signedP_back hsig (prefixed_back.2.1 (by rcases hx with rfl | rfl <;> decide))
    have h3 : binary (sg ++ '0' :: x :: c :: (ds ++ r)) = .back :=
      signedP_back hsig (prefixed_back.2.2 (by rcases hx with rfl | rfl <;> decide))
    rw [alt_right (bind_back h1), alt_right (bind_back h2), alt_right (bind_back h3)]
    exact decimal_letter hs (by rcases hx with rfl | rfl <;> simp)

theorem int_oct {sg : Str} {k : Int} (hs : Sign sg k) {x c : Char} {ds r : Str}
    (hx : x = 'o' ∨ x = 'O') (hd : Digits isOctDigit c ds) (hr : Ends r) :
    IntOut (sg ++ '0' :: x :: c :: (ds ++ r)) r (k * litVal 8 (c :: ds)) := by
  unfold IntOut
  rw [natAbs_sign hs.cases]
  obtain ⟨b, hsig, hbk⟩ := signum_sign hs (c := '0') (q := x :: c :: (ds ++ r)) (by decide) (by decide)
  have hrd := reads_uoctal hx hd (hr.stop.grp (fun _ h => hex_of_dec (dec_of_oct h)))
  have h1 : hex (sg ++ '0' :: x :: c :: (ds ++ r)) = .back :=
    signedP_back hsig (prefixed_back.1 (by rcases hx with rfl | rfl <;> decide))
  refine ⟨fun hm => ?_, fun hm => ?_⟩
  · obtain ⟨v, h4, h5⟩ := hrd.1 hm
    obtain ⟨y, h6, h7⟩ := signedP_ok hsig hbk hs.cases h4 h5
    refine ⟨y, integerValue_eq ?_, h7⟩
    rw [alt_right (bind_back h1)]
    exact alt_left (intAlt_eq h6 hr)
  · right
    unfold integerValue
    apply bind_cut
    have h2 : octal (sg ++ '0' :: x :: c :: (ds ++ r)) = .back := signedP_back hsig (hrd.2 hm)
    have h3 : binary (sg ++ '0' :: x :: c :: (ds ++ r)) = .back :=
      signedP_back hsig (prefixed_back.2.2 (by rcases hx with rfl | rfl <;> decide))
    rw [alt_right (bind_back h1), alt_right (bind_back h2), alt_right (bind_back h3)]
    exact decimal_letter hs (by rcases hx with rfl | rfl <;> simp)

theorem int_bin {sg : Str} {k : Int} (hs : Sign sg k) {x c : Char} {ds r : Str}
    (hx : x = 'b' ∨ x = 'B') (hd : Digits isBinDigit c ds) (hr : Ends r) :
    IntOut (sg ++ '0' :: x :: c :: (ds ++ r)) r (k * litVal 2 (c :: ds)) := by
  unfold IntOut
  rw [natAbs_sign hs.cases]
  obtain ⟨b, hsig, hbk⟩ := signum_sign hs (c := '0') (q := x :: c :: (ds ++ r)) (by decide) (by decide)
  have hrd := reads_ubinary hx hd (hr.stop.grp (fun _ h => hex_of_dec (dec_of_bin h)))
  have h1 : hex (sg ++ '0' :: x :: c :: (ds ++ r)) = .back :=
    signedP_back hsig (prefixed_back.1 (by rcases hx with rfl | rfl <;> decide))
  have h2 : octal (sg ++ '0' :: x :: c :: (ds ++ r)) = .back :=
    signedP_back hsig (prefixed_back.2.1 (by rcases hx with rfl | rfl <;> decide))
  refine ⟨fun hm => ?_, fun hm => ?_⟩
  · obtain ⟨v, h4, h5⟩ := hrd.1 hm
    obtain ⟨y, h6, h7⟩ := signedP_ok hsig hbk hs.cases h4 h5
    refine ⟨y, integerValue_eq ?_, h7⟩
    rw [alt_right (bind_back h1), alt_right (bind_back h2)]
    exact alt_left (intAlt_eq h6 hr)
  · right
    unfold integerValue
    apply bind_cut
    have h3 : binary (sg ++ '0' :: x :: c :: (ds ++ r)) = .cut := signedP_cut hsig (hrd.2 hm)
    rw [alt_right (bind_back h1), alt_right (bind_back h2)]
    exact alt_cut (bind_cut h3)

theorem int_dec {sg : Str} {k : Int} (hs : Sign sg k) {c : Char} {ds r : Str}
    (hd' : Digits isDecDigit c ds) (hr : Ends r) :
    IntOut (sg ++ c :: (ds ++ r)) r (k * litVal 10 (c :: ds)) := by
  unfold IntOut
  rw [natAbs_sign hs.cases]
  have hst := hr.stop
  have hfc := dec_facts (hex_of_dec hd'.1)
  obtain ⟨b, hsig, hbk⟩ := signum_sign hs (c := c) (q := ds ++ r) hfc.1 hfc.2.1
  have hrd := reads_udecimal hd' (hst.grp (fun _ => hex_of_dec))
  have hback : uhex (c :: (ds ++ r)) = .back ∧ uoctal (c :: (ds ++ r)) = .back ∧
      ubinary (c :: (ds ++ r)) = .back := by
    have hfacts : ∀ d q, ds ++ r = d :: q →
        (d ≠ 'x' ∧ d ≠ 'X') ∧ (d ≠ 'o' ∧ d ≠ 'O') ∧ (d ≠ 'b' ∧ d ≠ 'B') := by
      intro d q e
      cases ds with
      | nil =>
        have := hst d q e
        refine ⟨⟨?_, ?_⟩, ⟨?_, ?_⟩, ⟨?_, ?_⟩⟩ <;> rintro rfl <;> revert this <;> decide
      | cons d' ds' =>
        cases e
        have := hd'.2 d (List.mem_cons_self ..)
        refine ⟨⟨?_, ?_⟩, ⟨?_, ?_⟩, ⟨?_, ?_⟩⟩ <;> rintro rfl <;> revert this <;> decide
    cases hq : ds ++ r with
    | nil => exact prefixed_back_one
    | cons d q =>
      have := hfacts d q hq
      exact ⟨prefixed_back.1 this.1, prefixed_back.2.1 this.2.1, prefixed_back.2.2 this.2.2⟩
  have h1 : hex (sg ++ c :: (ds ++ r)) = .back := signedP_back hsig hback.1
  have h2 : octal (sg ++ c :: (ds ++ r)) = .back := signedP_back hsig hback.2.1
  have h3 : binary (sg ++ c :: (ds ++ r)) = .back := signedP_back hsig hback.2.2
  refine ⟨fun hm => ?_, fun hm => ?_⟩
  · obtain ⟨x, h4, h5⟩ := hrd.1 hm
    obtain ⟨y, h6, h7⟩ := signedP_ok hsig hbk hs.cases h4 h5
    refine ⟨y, integerValue_eq ?_, h7⟩
    rw [alt_right (bind_back h1), alt_right (bind_back h2), alt_right (bind_back h3)]
    exact intAlt_eq h6 hr
  · left
    unfold integerValue
    apply bind_back
    rw [alt_right (bind_back h1), alt_right (bind_back h2), alt_right (bind_back h3)]
    exact bind_back (signedP_back hsig (hrd.2 hm))

/-- Reading an integer literal. -/
theorem int_forward {t r : Str} {v : Int} (h : IntLit t v) (hr : Ends r) : IntOut (t ++ r) r v := by
  obtain ⟨sg, k, pre, radix, c, ds, hs, hb, hc, hds, rfl, rfl⟩ := h
  have hd := digits_of hb hc hds
  cases hb with
  | dec =>
    have e : sg ++ [] ++ c :: ds ++ r = sg ++ c :: (ds ++ r) := by simp
    rw [e]; exact int_dec hs hd hr
  | hex => simpa using int_hex hs (Or.inl rfl) hd hr
  | hexU => simpa using int_hex hs (Or.inr rfl) hd hr
  | oct => simpa using int_oct hs (Or.inl rfl) hd hr
  | octU => simpa using int_oct hs (Or.inr rfl) hd hr
  | bin => simpa using int_bin hs (Or.inl rfl) hd hr
  | binU => simpa using int_bin hs (Or.inr rfl) hd hr

/-! ### Integer values come from integer literals -/

theorem group_inv {f : Char → Bool} {radix : Nat} (hu : f '_' = false)
    (hf : ∀ c, f c = true → isHexDigit c = true) {s r : Str} {x : I128}
    (h : ∃ t, digitGroup f s = .ok t r ∧ fromStrRadix radix t = some x) :
    ∃ c ds, Digits f c ds ∧ s = c :: (ds ++ r) ∧ x.val = litVal radix (c :: ds) := by
  obtain ⟨t, h1, h2⟩ := h
  cases s with
  | nil => rw [digitGroup_back (by simp)] at h1; cases h1
  | cons c q =>
    by_cases hc : f c = true
    · rw [digitGroup_eq hu hc] at h1
      cases h1
      have hg : isGrp f c = true := by simp [isGrp, hc]
      rw [List.takeWhile_cons_of_pos hg] at h2
      refine ⟨c, q.takeWhile (isGrp f), ⟨hc, fun x hx => mem_takeWhile hx⟩, ?_, ?_⟩
      · rw [List.dropWhile_cons_of_pos hg, List.takeWhile_append_dropWhile]
      · rw [fromStrRadix_ok h2, digitsVal_litVal]
        apply isGrp_hex hf
        intro x hx
        rcases List.mem_cons.mp hx with rfl | hx
        · exact hg
        · exact mem_takeWhile hx
    · rw [digitGroup_back (by rintro c' q' ⟨⟩; simpa using hc)] at h1
      cases h1

theorem udecimal_inv {s r : Str} {x : I128} (h : udecimal s = .ok x r) :
    ∃ c ds, Digits isDecDigit c ds ∧ s = c :: (ds ++ r) ∧ x.val = litVal 10 (c :: ds) :=
  group_inv isDecDigit_us (fun _ => hex_of_dec) (mapOpt_ok.mp h)

theorem uhex_inv {s r : Str} {x : I128} (h : uhex s = .ok x r) :
    ∃ pre c ds, Base pre 16 ∧ Digits isHexDigit c ds ∧ s = pre ++ c :: (ds ++ r) ∧
      x.val = litVal 16 (c :: ds) := by
  unfold uhex at h
  rw [bind_ok] at h
  obtain ⟨_, q, h1, h⟩ := h
  simp only [mapOpt_ok, cutErr_ok] at h
  obtain ⟨c, ds, h2, rfl, h3⟩ := group_inv isHexDigit_us (fun _ h => h) h
  simp only [alt_ok, lit_ok] at h1
  rcases h1 with rfl | ⟨_, rfl⟩
  · exact ⟨_, c, ds, .hex, h2, rfl, h3⟩
  · exact ⟨_, c, ds, .hexU, h2, rfl, h3⟩

theorem uoctal_inv {s r : Str} {x : I128} (h : uoctal s = .ok x r) :
    ∃ pre c ds, Base pre 8 ∧ Digits isOctDigit c ds ∧ s = pre ++ c :: (ds ++ r) ∧
      x.val = litVal 8 (c :: ds) := by
  unfold uoctal at h
  rw [bind_ok] at h
  obtain ⟨_, q, h1, h⟩ := h
  simp only [mapOpt_ok, cutErr_ok] at h
  obtain ⟨c, ds, h2, rfl, h3⟩ := group_inv isOctDigit_us (fun _ h => hex_of_dec (dec_of_oct h)) h
  simp only [alt_ok, lit_ok] at h1
  rcases h1 with rfl | ⟨_, rfl⟩
  · exact ⟨_, c, ds, .oct, h2, rfl, h3⟩
  · exact ⟨_, c, ds, .octU, h2, rfl, h3⟩

theorem ubinary_inv {s r : Str} {x : I128} (h : ubinary s = .ok x r) :
    ∃ pre c ds, Base pre 2 ∧ Digits isBinDigit c ds ∧ s = pre ++ c :: (ds ++ r) ∧
      x.val = litVal 2 (c :: ds) := by
  unfold ubinary at h
  rw [bind_ok] at h
  obtain ⟨_, q, h1, h⟩ := h
  rw [cutErr_ok, mapOpt_ok] at h
  obtain ⟨t, h, hx⟩ := h
  have key : ∃ c ds, Digits isBinDigit c ds ∧ q = c :: (ds ++ r) ∧ x.val = litVal 2 (c :: ds) := by
    cases q with
    | nil => rw [binGroup_back (by simp)] at h; cases h
    | cons c q =>
      by_cases hc : isBinDigit c = true
      · rw [binGroup_eq hc] at h
        cases h
        have hg : isGrp isBinDigit c = true := by simp [isGrp, hc]
        rw [List.takeWhile_cons_of_pos hg] at hx
        refine ⟨c, q.takeWhile (isGrp isBinDigit), ⟨hc, fun x hx => mem_takeWhile hx⟩, ?_, ?_⟩
        · rw [List.dropWhile_cons_of_pos hg, List.takeWhile_append_dropWhile]
        · rw [fromStrRadix_ok hx, digitsVal_litVal]
          apply isGrp_hex (f := isBinDigit) (fun _ h => hex_of_dec (dec_of_bin h))
          intro x hx
          rcases List.mem_cons.mp hx with rfl | hx
          · exact hg
          · exact mem_takeWhile hx
      · rw [binGroup_back (by rintro c' q' ⟨⟩; simpa using hc)] at h
        cases h
  obtain ⟨c, ds, h2, rfl, h3⟩ := key
  simp only [alt_ok, lit_ok] at h1
  rcases h1 with rfl | ⟨_, rfl⟩
  · exact ⟨_, c, ds, .bin, h2, rfl, h3⟩
  · exact ⟨_, c, ds, .binU, h2, rfl, h3⟩

theorem signedP_inv {p : P I128} {s r : Str} {y : I128} (h : signedP p s = .ok y r) :
    ∃ sg k q x, Sign sg k ∧ s = sg ++ q ∧ p q = .ok x r ∧ y.val = k * x.val := by
  unfold signedP at h
  rw [bind_ok] at h
  obtain ⟨b, q, h1, h⟩ := h
  rw [bind_ok] at h
  obtain ⟨x, q', h2, h⟩ := h
  obtain ⟨sg, k, hs, rfl, hb⟩ := signum_ok h1
  cases b with
  | true =>
    obtain ⟨rfl, rfl⟩ := pure_ok.mp h
    have : k = 1 := hb.mp rfl
    exact ⟨sg, k, q, _, hs, rfl, h2, by rw [this]; omega⟩
  | false =>
    have : k = -1 := hs.cases.resolve_left (fun h => by have := hb.mpr h; cases this)
    simp only [Bool.false_eq_true, if_false] at h
    unfold negatedP I128.ofInt? at h
    split at h
    · rename_i heq
      split at heq
      · cases heq; cases h
        exact ⟨sg, k, q, x, hs, rfl, h2, by rw [this]; show -x.val = _; omega⟩
      · cases heq
    · cases h

/-- An accepted integer was written as an integer literal. -/
theorem integerValue_inv {s r : Str} {v : Value} (h : integerValue s = .ok v r) :
    ∃ i t, v = .integer i ∧ s = t ++ r ∧ IntLit t i.val ∧ Ends r := by
  unfold integerValue at h
  rw [bind_ok] at h
  obtain ⟨i, q, h, h'⟩ := h
  obtain ⟨rfl, rfl⟩ := pure_ok.mp h'
  have key : ∀ {p : P I128} {u : P I128}, p = signedP u →
      (∀ {s r x}, u s = .ok x r → ∃ pre radix c ds, Base pre radix ∧ Digits (baseDigit radix) c ds ∧
        s = pre ++ c :: (ds ++ r) ∧ x.val = litVal radix (c :: ds)) →
      (do let i ← p; valueTerminatorCheck; return i : P I128) s = .ok i r →
      ∃ t, s = t ++ r ∧ IntLit t i.val ∧ Ends r := by
    intro p u hp hu h
    rw [bind_ok] at h
    obtain ⟨x, q, h1, h⟩ := h
    rw [bind_ok] at h
    obtain ⟨_, q', h2, h⟩ := h
    obtain ⟨rfl, rfl⟩ := pure_ok.mp h
    obtain ⟨he, hq⟩ := check_ok h2
    subst hq
    rw [hp] at h1
    obtain ⟨sg, k, q, x', hs, rfl, h4, h5⟩ := signedP_inv h1
    obtain ⟨pre, radix, c, ds, hb, hd, rfl, h6⟩ := hu h4
    obtain ⟨hc, hds⟩ := digits_of' hb hd
    exact ⟨sg ++ pre ++ c :: ds, by simp, ⟨sg, k, pre, radix, c, ds, hs, hb, hc, hds, rfl, by rw [h5, h6]⟩, he⟩
  have conv : ∀ {s r : Str} {x : I128} {rad : Nat}, (∃ pre c ds, Base pre rad ∧ Digits (baseDigit rad) c ds ∧
      s = pre ++ c :: (ds ++ r) ∧ x.val = litVal rad (c :: ds)) → ∃ pre radix c ds, Base pre radix ∧
      Digits (baseDigit radix) c ds ∧ s = pre ++ c :: (ds ++ r) ∧ x.val = litVal radix (c :: ds) := by
    rintro s r x rad ⟨pre, c, ds, h⟩
    exact ⟨pre, rad, c, ds, h⟩
  rcases alt_ok.mp h with h | ⟨_, h⟩
  · obtain ⟨t, h⟩ := key rfl (fun h => conv (uhex_inv h)) h
    exact ⟨i, t, rfl, h⟩
  rcases alt_ok.mp h with h | ⟨_, h⟩
  · obtain ⟨t, h⟩ := key rfl (fun h => conv (uoctal_inv h)) h
    exact ⟨i, t, rfl, h⟩
  rcases alt_ok.mp h with h | ⟨_, h⟩
  · obtain ⟨t, h⟩ := key rfl (fun h => conv (ubinary_inv h)) h
    exact ⟨i, t, rfl, h⟩
  · obtain ⟨t, h⟩ := key rfl (fun h => by
      obtain ⟨c, ds, h⟩ := udecimal_inv h
      exact ⟨[], 10, c, ds, .dec, h⟩) h
    exact ⟨i, t, rfl, h⟩

end Kdl
