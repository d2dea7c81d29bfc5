import Verif.Lemmas.Parser.Values
import Verif.Lemmas.Parser.Parts
import Verif.Lemmas.KernelRfl
/-
C07: integer literals.
-/

namespace Kdl
open Spec

section
variable [FloatIO]

/-- The text of an entry's value, when it was parsed. -/
def Entry.valueText (e : Entry) : Option Str := e.format.map (·.valueRepr)

theorem valueBody_integer {s r : Str} {i : I128} (h : valueBody s = .ok (.integer i) r) :
    ∃ t, s = t ++ r ∧ IntLit t i.val := by
  unfold valueBody at h
  rcases alt_ok.mp h with h | ⟨_, h⟩
  · exfalso
    unfold keyword at h
    rw [bind_ok] at h
    obtain ⟨_, _, _, h⟩ := h
    rw [bind_ok] at h
    obtain ⟨_, _, _, h⟩ := h
    rw [cutErr_ok] at h
    simp only [alt_ok, bind_ok, pure_ok] at h
    rcases h with ⟨_, _, _, h, _⟩ | ⟨_, ⟨_, _, _, h, _⟩ | ⟨_, ⟨_, _, _, h, _⟩ | ⟨_, ⟨_, _, _, h, _⟩ |
      ⟨_, ⟨_, _, _, h, _⟩ | ⟨_, ⟨_, _, _, h, _⟩⟩⟩⟩⟩⟩ <;> cases h
  rcases alt_ok.mp h with h | ⟨_, h⟩
  · unfold number at h
    rcases alt_ok.mp h with h | ⟨_, h⟩
    · exfalso
      unfold floatValue at h
      rw [bind_ok] at h
      obtain ⟨_, _, _, h⟩ := h
      rw [bind_ok] at h
      obtain ⟨_, _, _, h⟩ := h
      cases (pure_ok.mp h).1
    · obtain ⟨j, t, e, hs, hl, _⟩ := integerValue_inv h
      cases e
      exact ⟨t, hs, hl⟩
  · exfalso
    rw [bind_ok] at h
    obtain ⟨_, _, _, h⟩ := h
    cases (pure_ok.mp h).1

theorem value_integer {total : Nat} {s r : Str} {e : Entry} {i : I128} (h : value total s = .ok e r)
    (hv : e.value = .integer i) : ∃ t, e.valueText = some t ∧ IntLit t i.val := by
  obtain ⟨s1, v, h1, rfl, _, _, h2⟩ := value_inv h
  rw [hv] at h1
  obtain ⟨t, rfl, hl⟩ := valueBody_integer h1
  refine ⟨t, ?_, hl⟩
  rcases h2 with ⟨_, _, _, hf⟩ | ⟨_, _, _, _, _, _, _, _, hf⟩
  · simp only [Entry.valueText, hf, Option.map_some, taken_append]
  · simp only [Entry.valueText, hf, Option.map_some, taken_append]

theorem entryBody_integer {total : Nat} {s r : Str} {e : Entry} {i : I128}
    (h : entryBody total s = .ok e r) (hv : e.value = .integer i) :
    ∃ t, e.valueText = some t ∧ IntLit t i.val := by
  rcases entryBody_inv h with ⟨_, h⟩ | ⟨j, s1, _, _, _, rfl⟩ | ⟨j, s1, ak, s2, ae, s3, v, h1, h2, h3, h4, rfl⟩
  · exact value_integer h hv
  · cases hv
  · obtain ⟨t, ht, hl⟩ := value_integer h4 hv
    refine ⟨t, ?_, hl⟩
    unfold Entry.valueText at ht ⊢
    cases hf : v.format with
    | none => rw [hf] at ht; cases ht
    | some f => rw [hf] at ht; exact ht

theorem nodeEntry_integer {total : Nat} {s r : Str} {e : Entry} {i : I128}
    (h : nodeEntry total s = .ok e r) (hv : e.value = .integer i) :
    ∃ t, e.valueText = some t ∧ IntLit t i.val := by
  rw [nodeEntry_unfold] at h
  obtain ⟨l, s1, e', h1, h2, rfl⟩ := nodeEntryF_inv h
  obtain ⟨t, ht, hl⟩ := entryBody_integer h2 hv
  refine ⟨t, ?_, hl⟩
  unfold Entry.valueText at ht ⊢
  cases hf : e'.format with
  | none => rw [hf] at ht; cases ht
  | some f => rw [hf] at ht; exact ht

/-- **C07** (documents). Every integer of a parsed document, at any depth, was
written as an integer literal with exactly that value. -/
theorem C07_document_integers {s : Str} {d : Document} (h : Document.parse s = .ok d) {e : Entry}
    (he : Part.entry e ∈ docParts d) {i : I128} (hv : e.value = .integer i) :
    ∃ t, e.valueText = some t ∧ IntLit t i.val := by
  have hQ : PartsOk (utf8Len s) s (fun p => ∀ e, p = .entry e → ∀ i : I128, e.value = .integer i →
      ∃ t, e.valueText = some t ∧ IntLit t i.val) :=
    { ident := by rintro _ _ _ _ _ _ ⟨⟩
      entry := by rintro s r e _ h _ ⟨⟩ i hv; exact nodeEntry_integer h hv
      node := by rintro _ _ _ _ _ ⟨⟩
      doc := by rintro _ _ _ _ _ ⟨⟩ }
  exact documentP_parts hQ h _ he e rfl i hv

/-- **C07** (entries, only exact values). A text accepted as an integer entry is
an integer literal, and the entry's value is the mathematical value of that
literal. -/
theorem C07_entry_integers {s : Str} {e : Entry} (h : Entry.parse s = .ok e) {i : I128}
    (hv : e.value = .integer i) : ∃ t, e.valueText = some t ∧ IntLit t i.val := by
  have h := tryParse_ok.mp h
  unfold paddedNodeEntry at h
  rw [bind_here, bind_ok] at h
  obtain ⟨l, s1, h1, h⟩ := h
  rw [bind_ok] at h
  obtain ⟨e', s2, h2, h⟩ := h
  rw [bind_ok] at h
  obtain ⟨t', s3, h3, h⟩ := h
  rw [bind_here] at h
  obtain ⟨rfl, _⟩ := pure_ok.mp h
  obtain ⟨t, ht, hl⟩ := nodeEntry_integer h2 hv
  refine ⟨t, ?_, hl⟩
  unfold Entry.valueText at ht ⊢
  cases hf : e'.format with
  | none => rw [hf] at ht; cases ht
  | some f => rw [hf] at ht; exact ht

omit [FloatIO] in
theorem intLit_solid {t : Str} {v : Int} (h : IntLit t v) : Solid t ∧ (∀ q, t ≠ '(' :: q) := by
  have hn := intLit_numberLike (r := []) h
  rw [List.append_nil] at hn
  obtain ⟨c, q, e, hc⟩ := numberLike_head hn
  have hf := numberLike_head_facts hc
  subst e
  constructor
  · rintro _ _ ⟨⟩
    exact ⟨fun hb => hb.elim hf.2.2.2.2.2.1 hf.2.2.2.2.2.2.1, hf.2.2.2.1, hf.2.2.2.2.1⟩
  · rintro q ⟨⟩
    exact hf.2.2.1 rfl

/-- **C07** (accepted). Every integer literal whose magnitude is at most
`i128::MAX` is accepted, with its mathematical value. -/
theorem C07_literal_accepted {t : Str} {v : Int} (h : IntLit t v) (hv : v.natAbs ≤ i128Max) :
    ∃ e i, Entry.parse t = .ok e ∧ e.value = .integer i ∧ i.val = v ∧ e.name = none ∧ e.ty = none := by
  have hn := intLit_numberLike (r := []) h
  obtain ⟨i, h1, h2⟩ := valueBody_int h Ends.nil hv
  rw [List.append_nil] at h1 hn
  have hb : entryBody (utf8Len t) t = .ok (plainEntry (utf8Len t) (.integer i) t []) [] := by
    rw [entryBody_value (stringP_num hn)]
    exact value_eq (intLit_solid h).2 h1
  obtain ⟨e, h3, h4, h5, h6⟩ := entryParse_ok (intLit_solid h).1 hb
  exact ⟨e, i, h3, h4, h2, h5, h6⟩

/-- **C07** (rejected). An integer literal of larger magnitude is an error: it is
neither truncated nor wrapped nor turned into a float. -/
theorem C07_literal_rejected {t : Str} {v : Int} (h : IntLit t v) (hv : ¬ v.natAbs ≤ i128Max) :
    Entry.parse t = .err := by
  have hn := intLit_numberLike (r := []) h
  have h1 := valueBody_int_out h Ends.nil hv
  rw [List.append_nil] at h1 hn
  apply entryParse_err (intLit_solid h).1
  rw [entryBody_value (stringP_num hn)]
  rcases h1 with h1 | h1
  · exact Or.inl (value_back (intLit_solid h).2 h1)
  · exact Or.inr (value_cut (intLit_solid h).2 h1)

omit [FloatIO] in
/-- The value of a literal is determined by its text. -/
theorem C07_literal_unique [FloatIO] {t : Str} {v w : Int} (h : IntLit t v) (h' : IntLit t w)
    (hv : v.natAbs ≤ i128Max) (hw : w.natAbs ≤ i128Max) : v = w := by
  obtain ⟨e, i, h1, h2, h3, _⟩ := C07_literal_accepted h hv
  obtain ⟨e', j, h1', h2', h3', _⟩ := C07_literal_accepted h' hw
  rw [h1] at h1'
  cases h1'
  rw [h2] at h2'
  cases h2'
  rw [← h3, ← h3']

end

/-! Examples: literals of each kind meet the hypotheses. -/

/-- `-0x7F_ff` denotes -32767. -/
example : IntLit "-0x7F_ff".toList (-32767) :=
  ⟨['-'], -1, ['0', 'x'], 16, '7', "F_ff".toList, .minus, .hex, ⟨7, by decide, by decide⟩, by
    intro x hx
    simp only [String.toList] at hx
    have : ∀ x ∈ "F_ff".toList, x = '_' ∨ isHexDigit x = true := by decide
    exact (this x hx).imp_right isDigit_iff.2.1.mpr, by decide, by decide⟩

/-- `0b1` followed by 127 zeros denotes `2^127`, which is out of range. -/
example : ∃ t, IntLit t (2 ^ 127) ∧ ¬ ((2 : Int) ^ 127).natAbs ≤ i128Max := by
  refine ⟨['0', 'b'] ++ '1' :: List.replicate 127 '0', ⟨[], 1, ['0', 'b'], 2, '1', List.replicate 127 '0',
    .none, .bin, ⟨1, by decide, by decide⟩, ?_, rfl, ?_⟩, ?_⟩
  · intro x hx
    rw [List.mem_replicate] at hx
    rw [hx.2]
    exact Or.inr ⟨0, by decide, by decide⟩
  · have h : ∀ n, litVal 2 (List.replicate n '0') = 0 ∧ numDigits (List.replicate n '0') = n := by
      intro n
      induction n with
      | zero => exact ⟨rfl, rfl⟩
      | succ n ih =>
        rw [List.replicate_succ]
        constructor
        · have d0 : digit '0' = some 0 := by decide
          simp only [litVal, ih.1, d0]
          simp
        · have := ih.2
          unfold numDigits at *
          rw [List.filter_cons_of_pos (by decide), List.length_cons, this]
    have d1 : digit '1' = some 1 := by decide
    show _ = 1 * ((litVal 2 ('1' :: List.replicate 127 '0') : Nat) : Int)
    rw [show litVal 2 ('1' :: List.replicate 127 '0') = 2 ^ 127 by
      rw [litVal, if_neg (by decide), d1, (h 127).1, (h 127).2]; rfl]
    decide
  · decide

end Kdl
