import Verif.Lemmas.FloatShort
import Verif.Lemmas.Parser.FloatLit
import Verif.Props.Values
/-
C57, C58: reading and writing floats, with the float texts of Rust's standard library.
-/

namespace Kdl
open Spec

/-! ### The float texts of the standard library -/

attribute [local instance] rustFloatIO

theorem dropUnderscores_plain {s : Str} (h : ∀ c ∈ s, c ≠ '_') : dropUnderscores s = s := by
  unfold dropUnderscores
  exact List.filter_eq_self.mpr fun c hc => by simpa using h c hc

/-- What the theorems about printing assume of float texts holds for those of the standard library. -/
theorem rustFloatIO_lawful : LawfulFloatIO where
  shape x hx := by
    obtain ⟨p, _, h2, h3, _⟩ := showFloat_short hx
    show FloatShape (showFloat x)
    rw [h2]
    exact h3
  parse_show x hx := by
    obtain ⟨p, h1, h2, _, h4, h5, _⟩ := showFloat_short hx
    show readFloat (showFloat x) = x
    have h6 := readFloat_lit h1
    rw [dropUnderscores_plain h4] at h6
    rw [h2, h6.eq, ← h5.eq]

/-! ### Reading -/

theorem floatLit_solid {p : FloatNum} (h : p.Ok) : Solid p.text ∧ (∀ q, p.text ≠ '(' :: q) := by
  have hn := h.numberLike []
  rw [List.append_nil] at hn
  obtain ⟨c, q, e, hc⟩ := numberLike_head hn
  have hf := numberLike_head_facts hc
  rw [e]
  constructor
  · rintro _ _ ⟨⟩
    exact ⟨fun hb => hb.elim hf.2.2.2.2.2.1 hf.2.2.2.2.2.2.1, hf.2.2.2.1, hf.2.2.2.2.1⟩
  · rintro q ⟨⟩
    exact hf.2.2.1 rfl

/-- **C57**, partial: every float literal with digit groups of at most `i128::MAX` is accepted, and
its value is the nearest float, with the sign of the literal. Missing from C57: literals with a
larger digit group, which are rejected, see `C57_literal_rejected`. -/
theorem C57_literal_accepted_partial {p : FloatNum} (h : p.Ok) (hf : p.Fits) :
    ∃ e x, Entry.parse p.text = .ok e ∧ e.value = .float x ∧ Denotes p x ∧ e.name = none ∧ e.ty = none := by
  have hn := h.numberLike []
  have h1 := valueBody_lit h hf Ends.nil
  rw [List.append_nil] at h1 hn
  have hb : entryBody (utf8Len p.text) p.text =
      .ok (plainEntry (utf8Len p.text) (.float (readFloat (dropUnderscores p.text))) p.text []) [] := by
    rw [entryBody_value (stringP_num hn)]
    exact value_eq (floatLit_solid h).2 h1
  obtain ⟨e, h3, h4, h5, h6⟩ := entryParse_ok (floatLit_solid h).1 hb
  exact ⟨e, _, h3, h4, readFloat_lit h, h5, h6⟩

/-- A literal denotes one float only. -/
theorem C57_literal_unique {p : FloatNum} {x y : F64} (hx : Denotes p x) (hy : Denotes p y) : x = y := by
  rw [hx.eq, hy.eq]

/-- A float literal with a digit group larger than `i128::MAX` is rejected, although the grammar
allows it and its value may be small. -/
theorem C57_literal_rejected {p : FloatNum} (h : p.Ok) (hf : ¬ p.Fits) : Entry.parse p.text = .err := by
  have hn := h.numberLike []
  have h1 := valueBody_lit_out h hf Ends.nil
  rw [List.append_nil] at h1 hn
  apply entryParse_err (floatLit_solid h).1
  rw [entryBody_value (stringP_num hn)]
  rcases h1 with h1 | h1
  · exact Or.inl (value_back (floatLit_solid h).2 h1)
  · exact Or.inr (value_cut (floatLit_solid h).2 h1)

/-- How a float may have been written. -/
def WrittenFloat (t : Str) (x : F64) : Prop :=
  (∃ p : FloatNum, p.Ok ∧ t = p.text ∧ Denotes p x) ∨
  (t = "#inf".toList ∧ x = F64.inf) ∨ (t = "#-inf".toList ∧ x = F64.negInf) ∨ (t = "#nan".toList ∧ x = F64.nan)

theorem valueBody_floats {s r : Str} {x : F64} (h : valueBody s = .ok (.float x) r) :
    ∃ t, s = t ++ r ∧ WrittenFloat t x := by
  unfold valueBody at h
  rcases alt_ok.mp h with h | ⟨_, h⟩
  · unfold keyword at h
    rw [bind_ok] at h
    obtain ⟨_, q, h0, h2⟩ := h
    rw [bind_ok] at h2
    obtain ⟨_, q', h1, h3⟩ := h2
    obtain ⟨rfl, _⟩ := notP_ok.mp h1
    rw [cutErr_ok] at h3
    rw [lit_ok] at h0
    subst h0
    simp only [alt_ok, bind_ok, pure_ok, lit_ok] at h3
    rcases h3 with ⟨_, _, _, k, _⟩ | ⟨_, ⟨_, _, _, k, _⟩ | ⟨_, ⟨_, _, _, k, _⟩ | ⟨_, ⟨_, _, hq, k, rfl⟩ |
      ⟨_, ⟨_, _, hq, k, rfl⟩ | ⟨_, ⟨_, _, hq, k, rfl⟩⟩⟩⟩⟩⟩
    · exact absurd k (by simp)
    · exact absurd k (by simp)
    · exact absurd k (by simp)
    · obtain rfl := Value.float.inj k
      exact ⟨"#nan".toList, by rw [hq]; rfl, Or.inr (Or.inr (Or.inr ⟨rfl, rfl⟩))⟩
    · obtain rfl := Value.float.inj k
      exact ⟨"#inf".toList, by rw [hq]; rfl, Or.inr (Or.inl ⟨rfl, rfl⟩)⟩
    · obtain rfl := Value.float.inj k
      exact ⟨"#-inf".toList, by rw [hq]; rfl, Or.inr (Or.inr (Or.inl ⟨rfl, rfl⟩))⟩
  rcases alt_ok.mp h with h | ⟨_, h⟩
  · unfold number at h
    rcases alt_ok.mp h with h | ⟨_, h⟩
    · obtain ⟨p, h1, _, hs, hv⟩ := floatValue_num h
      cases hv
      exact ⟨p.text, hs, Or.inl ⟨p, h1, rfl, readFloat_lit h1⟩⟩
    · obtain ⟨j, t, e, hs, hl, _⟩ := integerValue_inv h
      cases e
  · exfalso
    rw [bind_ok] at h
    obtain ⟨_, _, _, h⟩ := h
    cases (pure_ok.mp h).1

theorem value_floats {total : Nat} {s r : Str} {e : Entry} {x : F64} (h : value total s = .ok e r)
    (hv : e.value = .float x) : ∃ t, e.valueText = some t ∧ WrittenFloat t x := by
  obtain ⟨s1, v, h1, rfl, _, _, h2⟩ := value_inv h
  rw [hv] at h1
  obtain ⟨t, rfl, hl⟩ := valueBody_floats h1
  refine ⟨t, ?_, hl⟩
  rcases h2 with ⟨_, _, _, hf⟩ | ⟨_, _, _, _, _, _, _, _, hf⟩
  · simp only [Entry.valueText, hf, Option.map_some, taken_append]
  · simp only [Entry.valueText, hf, Option.map_some, taken_append]

theorem entryBody_floats {total : Nat} {s r : Str} {e : Entry} {x : F64}
    (h : entryBody total s = .ok e r) (hv : e.value = .float x) :
    ∃ t, e.valueText = some t ∧ WrittenFloat t x := by
  rcases entryBody_inv h with ⟨_, h⟩ | ⟨j, s1, _, _, _, rfl⟩ | ⟨j, s1, ak, s2, ae, s3, v, h1, h2, h3, h4, rfl⟩
  · exact value_floats h hv
  · cases hv
  · obtain ⟨t, ht, hl⟩ := value_floats h4 hv
    refine ⟨t, ?_, hl⟩
    unfold Entry.valueText at ht ⊢
    cases hf : v.format with
    | none => rw [hf] at ht; cases ht
    | some f => rw [hf] at ht; exact ht

theorem nodeEntry_floats {total : Nat} {s r : Str} {e : Entry} {x : F64}
    (h : nodeEntry total s = .ok e r) (hv : e.value = .float x) :
    ∃ t, e.valueText = some t ∧ WrittenFloat t x := by
  rw [nodeEntry_unfold] at h
  obtain ⟨l, s1, e', h1, h2, rfl⟩ := nodeEntryF_inv h
  obtain ⟨t, ht, hl⟩ := entryBody_floats h2 hv
  refine ⟨t, ?_, hl⟩
  unfold Entry.valueText at ht ⊢
  cases hf : e'.format with
  | none => rw [hf] at ht; cases ht
  | some f => rw [hf] at ht; exact ht

/-- **C57** (documents). Every float of a parsed document, at any depth, was written as a keyword or
as a float literal, and is the float nearest to that literal. -/
theorem C57_document_floats {s : Str} {d : Document} (h : Document.parse s = .ok d) {e : Entry}
    (he : Part.entry e ∈ docParts d) {x : F64} (hv : e.value = .float x) :
    ∃ t, e.valueText = some t ∧ WrittenFloat t x := by
  have hQ : PartsOk (utf8Len s) s (fun p => ∀ e, p = .entry e → ∀ x : F64, e.value = .float x →
      ∃ t, e.valueText = some t ∧ WrittenFloat t x) :=
    { ident := by rintro _ _ _ _ _ _ ⟨⟩
      entry := by rintro s r e _ h _ ⟨⟩ i hv; exact nodeEntry_floats h hv
      node := by rintro _ _ _ _ _ ⟨⟩
      doc := by rintro _ _ _ _ _ ⟨⟩ }
  exact documentP_parts hQ h _ he e rfl x hv

/-- The literal `3.1415926535897932384626433832795028841971`. -/
def piLit : FloatNum := ⟨[], "3".toList, some "1415926535897932384626433832795028841971".toList, none⟩

theorem piLit_ok : piLit.Ok := by
  have key : ∀ s : Str, s ≠ [] → (∀ c ∈ s, isDecDigit c = true) → DigitGroup s := by
    intro s hs h
    exact digitGroup_digits (fun x hx => isDigit_iff.1.mpr (h x hx)) hs
  refine ⟨⟨1, .none⟩, key _ (by decide) (by decide), ?_, (by rintro _ ⟨⟩), Or.inl (by simp [piLit])⟩
  rintro _ ⟨⟩
  exact key _ (by decide) (by decide)

/-- C57 is violated: π with forty digits behind the point is rejected. -/
theorem C57_violated : piLit.Ok ∧ Entry.parse "3.1415926535897932384626433832795028841971".toList = .err := by
  refine ⟨piLit_ok, C57_literal_rejected piLit_ok fun h => ?_⟩
  exact absurd (h.frac _ rfl) (by decide +kernel)

/-! ### Writing -/

theorem display_finite {x : F64} (h : x.isFinite = true) : (Value.float x).display = showFloat x := by
  have hb := F64.finite_iff.mp h
  have hn : x.isNan = false := F64.notNan_iff.mpr (Nat.le_of_lt hb)
  have h1 : ¬ x.feq F64.inf = true := by
    intro hf
    rw [F64.feq_inf.mp hf] at h
    cases h
  have h2 : ¬ x.feq F64.negInf = true := by
    intro hf
    rw [F64.feq_negInf.mp hf] at h
    cases h
  simp only [Value.display, if_neg h1, if_neg h2, hn]
  rfl

/-- **C58**. A finite float is printed as a float literal that denotes it. No literal that denotes it
has fewer digits, and none with as few digits is nearer to it. -/
theorem C58_shortest {x : F64} (h : x.isFinite = true) : ∃ p : FloatNum, p.Ok ∧ (Value.float x).display = p.text ∧
    Denotes p x ∧
    (∀ q, Denotes q x → ∀ k, Short q.coeff k → Short p.coeff k) ∧
    (∀ q, Denotes q x → (∀ k, Short p.coeff k → Short q.coeff k) →
      AsNear x p.coeff p.exponent q.coeff q.exponent) := by
  obtain ⟨p, h1, h2, _, _, h3⟩ := showFloat_short h
  exact ⟨p, h1, by rw [display_finite h, h2], h3⟩

/-- **C58** (read back). The printed form of a float is read back as the same float, every NaN as the
standard one. -/
theorem C58_roundtrip (x : F64) : ∃ e, Entry.parse (Value.float x).display = .ok e ∧
    e.value = .float (if x.isNan then F64.nan else x) ∧ e.name = none ∧ e.ty = none := by
  have := rustFloatIO_lawful
  obtain ⟨e, h1, h2, _, h3, h4⟩ := (C08_value_partial (.float x)).1 trivial
  refine ⟨e, h1, ?_, h3, h4⟩
  rw [h2]
  unfold canonValue
  simp only
  split <;> rfl

/-! Examples. -/

/-- `-1_0.2_5E+3` is a float literal. -/
example : (FloatNum.mk ['-'] "1_0".toList (some "2_5".toList) (some ⟨'E', ['+'], ['3']⟩)).Ok ∧
    (FloatNum.mk ['-'] "1_0".toList (some "2_5".toList) (some ⟨'E', ['+'], ['3']⟩)).Fits := by
  have dg : ∀ (c : Char) (t : Str), isDecDigit c = true → (∀ x ∈ t, x = '_' ∨ isDecDigit x = true) → DigitGroup (c :: t) :=
    fun c t h1 h2 => ⟨c, t, rfl, isDigit_iff.1.mpr h1, fun x hx => (h2 x hx).imp_right isDigit_iff.1.mpr⟩
  refine ⟨⟨⟨-1, .minus⟩, dg _ _ (by decide) (by decide), ?_, ?_, Or.inl (by simp)⟩, by decide, ?_, ?_⟩
  · rintro _ ⟨⟩; exact dg _ _ (by decide) (by decide)
  · rintro _ ⟨⟩; exact ⟨Or.inr rfl, ⟨1, .plus⟩, dg _ _ (by decide) (by decide)⟩
  · rintro _ ⟨⟩; decide
  · rintro _ ⟨⟩; decide

/-- It is read as `-10250.0`. -/
example : readFloat (dropUnderscores "-1_0.2_5E+3".toList) = ⟨⟨0xC0C4050000000000, by decide⟩⟩ := by decide +kernel

/-- Ties go to the float with an even significand, and numbers that are too large to infinity. -/
example : readFloat "9007199254740993.0".toList = ⟨⟨0x4340000000000000, by decide⟩⟩ ∧
    readFloat "9007199254740995.0".toList = ⟨⟨0x4340000000000002, by decide⟩⟩ ∧
    readFloat "1e309".toList = F64.inf ∧ readFloat "-4.9e-324".toList = ⟨⟨0x8000000000000001, by decide⟩⟩ := by
  decide +kernel

/-- The shortest digits of some floats. -/
example : showFloat ⟨⟨0x3FB999999999999A, by decide⟩⟩ = "0.1".toList ∧
    showFloat ⟨⟨0x3FD3333333333334, by decide⟩⟩ = "0.30000000000000004".toList ∧
    showFloat ⟨⟨1, by decide⟩⟩ = "5e-324".toList ∧
    showFloat ⟨⟨0xFFEFFFFFFFFFFFFF, by decide⟩⟩ = "-1.7976931348623157e308".toList ∧
    showFloat ⟨⟨0x40FE240000000000, by decide⟩⟩ = "123456.0".toList := by
  decide +kernel

end Kdl
