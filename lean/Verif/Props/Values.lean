import Verif.Lemmas.Parser.PrintDoc
import Verif.Props.Parse
import Verif.Props.Numbers
import Verif.Props.Equality
/-
C08, C09: printing a value or an identifier and reading it back.
-/

namespace Kdl
open Spec

/-! ### The assumptions on float texts can be met

A toy way of writing floats that satisfies `LawfulFloatIO`, so that the theorems
below do not hold vacuously. -/

/-- Writes the bits of the float in decimal, followed by `.0`. -/
def toyShow (x : F64) : Str := showNat x.bits.val ++ ['.', '0']

/-- Reads what `toyShow` writes. -/
def toyParse (s : Str) : F64 :=
  if h : litVal 10 (s.takeWhile (· != '.')) < 2 ^ 64 then ⟨⟨litVal 10 (s.takeWhile (· != '.')), h⟩⟩
  else F64.zero

/-- A toy `FloatIO`. -/
@[reducible] def toyFloatIO : FloatIO := ⟨toyParse, toyShow⟩

theorem natDigitsRev_length : ∀ (k n m : Nat), n < 10 ^ k → 0 < k → (natDigitsRev m n).length ≤ k
  | 0, _, _, _, h => absurd h (by omega)
  | k + 1, n, 0, _, _ => by simp [natDigitsRev]
  | k + 1, n, m + 1, hn, _ => by
    unfold natDigitsRev
    split
    · simp
    · have h1 : n / 10 < 10 ^ k := by
        rw [Nat.pow_succ] at hn
        omega
      have hk : 0 < k := by
        cases k with
        | zero => simp at h1; omega
        | succ k => omega
      have := natDigitsRev_length k (n / 10) m h1 hk
      simp only [List.length_cons]
      omega

theorem toyFloatIO_lawful : @LawfulFloatIO toyFloatIO := by
  have key : ∀ x : F64, FloatShape (toyShow x) ∧ toyParse (toyShow x) = x := by
    intro x
    obtain ⟨c, ds, h1, h2, h3, h4⟩ := showNat_lit x.bits.val
    have hlen : (showNat x.bits.val).length ≤ 38 := by
      unfold showNat
      rw [List.length_map, List.length_reverse]
      refine natDigitsRev_length 38 _ _ ?_ (by decide)
      have := x.bits.isLt
      omega
    have hall : ∀ y ∈ showNat x.bits.val, IsDigit 10 y := by
      rw [h1]
      intro y hy
      rcases List.mem_cons.mp hy with rfl | hy
      · exact h2
      · exact h3 y hy
    refine ⟨⟨[], showNat x.bits.val, ['.', '0'], [], Or.inl rfl, ⟨by rw [h1]; simp, hlen, hall⟩,
      Or.inr ⟨['0'], ⟨by simp, by simp, ?_⟩, rfl⟩, Or.inl rfl, Or.inl (by simp), by simp [toyShow]⟩, ?_⟩
    · intro y hy
      rw [List.mem_singleton] at hy
      rw [hy]
      exact isDigit_iff.1.mpr (by decide)
    · have ht : (toyShow x).takeWhile (· != '.') = showNat x.bits.val := by
        unfold toyShow
        have hne : ∀ y ∈ showNat x.bits.val, (y != '.') = true := by
          intro y hy
          have := isDigit_iff.1.mp (hall y hy)
          simp only [bne_iff_ne, ne_eq]
          rintro rfl
          revert this
          decide
        rw [List.takeWhile_append_of_pos hne]
        simp
      unfold toyParse
      rw [ht, h1, h4, dif_pos x.bits.isLt]
  letI := toyFloatIO
  exact ⟨fun x _ => (key x).1, fun x _ => (key x).2⟩

section
variable [FloatIO]

/-! ### C09: identifiers -/

theorem identParse_iff {s : Str} {v : Str} :
    (∃ i, Ident.parse s = .ok i ∧ i.value = v) ↔ stringP s = .ok v [] := by
  constructor
  · rintro ⟨i, h, rfl⟩
    obtain ⟨_, _, _, _, _, h'⟩ := identifier_inv (tryParse_ok.mp h)
    exact h'
  · intro h
    have h1 := identifier_eq (total := utf8Len s) (t := s) (r := []) (by rw [List.append_nil]; exact h)
    rw [List.append_nil] at h1
    exact ⟨_, tryParse_ok.mpr h1, rfl⟩

/-- **C09**, partial: an identifier made from a string is read back from its
printed form if and only if the string is `Writable`; otherwise the printed form
is rejected. Missing from C09: the strings that are not `Writable`, for which it
fails. -/
theorem C09_identifier_partial (s : Str) :
    (Writable s → ∃ i, Ident.parse (Ident.ofStr s).display = .ok i ∧ i.value = s) ∧
    (¬ Writable s → Ident.parse (Ident.ofStr s).display = .err) := by
  have e : (Ident.ofStr s).display = writeString s := rfl
  rw [e]
  constructor
  · intro h
    rw [identParse_iff]
    have := stringP_write h (r := []) Ends.nil
    rwa [List.append_nil] at this
  · intro h
    rcases (C06_ok_or_err (writeString s)).2.2.2 with ⟨i, hi⟩ | hi
    · exact absurd (stringP_write_inv (y := []) (by rw [List.append_nil]; exact identParse_iff.mp ⟨i, hi, rfl⟩)) h
    · exact hi

/-- A string with quotes, backslashes, line feeds, a tab and a digit in front is
`Writable`. -/
example : Writable "1 \"two\"\n\tthree\\".toList := by
  refine ⟨by decide, ?_⟩
  rintro ⟨⟨g, d, t, hg, _, e⟩, _⟩
  rcases hg with rfl | rfl <;> exact absurd (List.cons.inj e).1 (by decide)

/-- C09 is violated: a string containing U+2028 LINE SEPARATOR is printed with the
separator inside the quotes, which is rejected. -/
theorem C09_violated_newline : ∃ s, Ident.parse (Ident.ofStr s).display = .err :=
  ⟨[Char.ofNat 0x2028], (C09_identifier_partial _).2 fun h => absurd (h.1 (Char.ofNat 0x2028) (by simp)) (by decide)⟩

/-- C09 is violated: `+.5` is printed without quotes, which is rejected. -/
theorem C09_violated_number : Ident.parse (Ident.ofStr ['+', '.', '5']).display = .err := by
  refine (C09_identifier_partial _).2 fun h => h.2 ⟨⟨'+', '5', [], Or.inl rfl, ?_, rfl⟩, by decide⟩
  exact isDigit_iff.1.mpr (by decide)

/-! ### C08: values -/

/-- A NaN is read back as a NaN, everything else as itself; either way the values
are equal for the library. -/
theorem canonValue_eq (v : Value) : Value.eq (canonValue v) v = true := by
  cases v with
  | float x =>
    by_cases h : x.isNan = true
    · have h1 : normalizeFloat x = F64.zero := by
        unfold normalizeFloat
        simp [F64.feq, h]
      have h2 : normalizeFloat F64.nan = F64.zero := by decide
      simp only [canonValue, h, if_true, Value.eq, h1, h2]
      decide
    · simp only [canonValue, h]
      exact Value.eq_refl _
  | _ => exact Value.eq_refl _

theorem entryParse_tok {v : Value} {t : Str} (h : ValTok v t) :
    ∃ e, Entry.parse t = .ok e ∧ e.value = v ∧ e.name = none ∧ e.ty = none := by
  obtain ⟨e, h1, h2⟩ := (EntTok.val (g := id) h).2 (utf8Len t) [] ⟨Ends.nil, [], rfl, by rintro _ ⟨⟩⟩
  rw [List.append_nil] at h1
  obtain ⟨e', h3, h4, h5, h6⟩ := entryParse_ok h.1.solid h1
  simp only [semEntry, SEntry.mk.injEq, id_eq, Option.map_eq_none_iff] at h2
  exact ⟨e', h3, by rw [h4, h2.2.2], by rw [h5, h2.2.1], by rw [h6, h2.1]⟩

theorem stringP_not_ok_entry {s : Str} (h1 : Solid s) (hp : ∀ q, s ≠ '(' :: q) (h : ∀ v q, stringP s ≠ .ok v q)
    (hk : keyword s = .back) (hn : number s = .back) : Entry.parse s = .err := by
  apply entryParse_err h1
  cases hs : stringP s with
  | ok v q => exact absurd hs (h v q)
  | back =>
    rw [entryBody_value hs]
    refine Or.inl (value_back hp ?_)
    unfold valueBody
    rw [alt_right hk, alt_right hn]
    exact bind_back hs
  | cut =>
    right
    unfold entryBody
    apply bind_cut
    have : identifier (utf8Len s) s = .cut := by
      unfold identifier
      rw [bind_here]
      exact bind_cut hs
    simp [opt, this]
  | crash => exact absurd hs (OkTo.stringP (s.length + 1) s (Nat.lt_succ_self _))

theorem writeString_err {s : Str} (h : ¬ Writable s) : Entry.parse (writeString s) = .err := by
  have hno : ∀ v q, stringP (writeString s) ≠ .ok v q := fun v q e =>
    h (stringP_write_inv (y := []) (by rw [List.append_nil]; exact e))
  by_cases hp : (!s.isEmpty && isPlainIdent s) = true
  · have e : writeString s = s := by unfold writeString; rw [if_pos hp]
    rw [e] at hno ⊢
    simp only [Bool.and_eq_true, Bool.not_eq_true', List.isEmpty_eq_false_iff] at hp
    have hsp : SignedPoint s := Classical.byContradiction fun hn =>
      h ⟨fun c hc => ident_clean (isPlainIdent_ident hp.2 c hc), hn⟩
    obtain ⟨⟨g, d, t, hg, hd, rfl⟩, _⟩ := hsp
    have hgc : Solid (g :: '.' :: d :: t) ∧ (∀ q, g :: '.' :: d :: t ≠ '(' :: q) ∧ (∀ q, g :: '.' :: d :: t ≠ '#' :: q) := by
      refine ⟨?_, ?_, ?_⟩
      · rintro _ _ ⟨⟩
        rcases hg with rfl | rfl <;> decide
      · rintro q e
        rcases hg with rfl | rfl <;> exact absurd (List.cons.inj e).1 (by decide)
      · rintro q e
        rcases hg with rfl | rfl <;> exact absurd (List.cons.inj e).1 (by decide)
    refine stringP_not_ok_entry hgc.1 hgc.2.1 hno (keyword_back hgc.2.2) ?_
    have hnd : NoDigit ('.' :: d :: t) := by rintro _ _ ⟨⟩; rfl
    rcases hg with rfl | rfl
    · exact number_back (b := true) rfl hnd
    · exact number_back (b := false) rfl hnd
  · have e : writeString s = '"' :: (s.flatMap escapeChar ++ ['"']) := by unfold writeString; rw [if_neg hp]; rfl
    rw [e] at hno ⊢
    refine stringP_not_ok_entry ?_ ?_ hno (keyword_back ?_) (number_back (signum_none (by decide) (by decide)) ?_)
    · rintro _ _ ⟨⟩; decide
    · rintro q ⟨⟩
    · rintro q ⟨⟩
    · rintro _ _ ⟨⟩; rfl

/-- **C08**, partial: the printed form of a value is read back as the same value
(any NaN as the standard one), without name or annotation, if the value is
`WritableValue`, and is rejected otherwise. Missing from C08: the values that are
not `WritableValue`, for which it fails. -/
theorem C08_value_partial [LawfulFloatIO] (v : Value) :
    (WritableValue v → ∃ e, Entry.parse v.display = .ok e ∧ e.value = canonValue v ∧ Value.eq e.value v = true ∧
      e.name = none ∧ e.ty = none) ∧
    (¬ WritableValue v → Entry.parse v.display = .err) := by
  constructor
  · intro h
    obtain ⟨e, h1, h2, h3, h4⟩ := entryParse_tok (ValTok.write h)
    exact ⟨e, h1, h2, by rw [h2]; exact canonValue_eq v, h3, h4⟩
  · intro h
    cases v with
    | string s => exact writeString_err h
    | integer i =>
      refine C07_literal_rejected (showInt_lit i.val) fun hn => h ?_
      intro e
      rw [e] at hn
      exact absurd hn (by decide)
    | float x => exact absurd trivial h
    | bool b => exact absurd trivial h
    | null => exact absurd trivial h

/-- C08 is violated: the smallest integer is printed as a literal that is
rejected. -/
theorem C08_violated_min : Entry.parse (Value.integer ⟨i128Min, by decide⟩).display = .err :=
  C07_literal_rejected (showInt_lit _) (by decide)

/-- C08 is violated: a string with a next-line character (U+0085) is printed with
that character between quotes, which is rejected. -/
theorem C08_violated_newline : Entry.parse (Value.string ['a', Char.ofNat 0x85]).display = .err :=
  writeString_err fun h => absurd (h.1 (Char.ofNat 0x85) (by simp)) (by decide)

/-- C08 is violated: the string `-.5` is printed without quotes, which is
rejected. -/
theorem C08_violated_number : Entry.parse (Value.string ['-', '.', '5']).display = .err :=
  writeString_err fun h => h.2 ⟨⟨'-', '5', [], Or.inr rfl, isDigit_iff.1.mpr (by decide), rfl⟩, by decide⟩

end

/-- A value meeting the hypotheses of `C08_value_partial`, with the toy float
texts. -/
example : ∃ e, @Entry.parse toyFloatIO (@Value.display toyFloatIO (.string "a \"b\"\n".toList)) = .ok e ∧
    e.value = .string "a \"b\"\n".toList := by
  letI := toyFloatIO
  haveI := toyFloatIO_lawful
  obtain ⟨e, h1, h2, _⟩ := (C08_value_partial (.string "a \"b\"\n".toList)).1
    ⟨by decide, by
      rintro ⟨⟨g, d, t, hg, _, e⟩, _⟩
      rcases hg with rfl | rfl <;> exact absurd (List.cons.inj e).1 (by decide)⟩
  exact ⟨e, h1, h2⟩

end Kdl
