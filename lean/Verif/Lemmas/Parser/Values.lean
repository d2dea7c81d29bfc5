import Verif.Lemmas.Parser.Quoted
/-
Values and whole entries.
-/

namespace Kdl
open Spec

/-! ### Texts that are not strings -/

theorem quotedString_back {s : Str} (h : ∀ q, s ≠ '"' :: q) : quotedString s = .back := by
  unfold quotedString
  apply bind_back
  rw [alt_right (bind_back (lit_back.mpr fun r e => h _ e))]
  exact bind_back (lit_back.mpr h)

theorem numberLike_head {s : Str} (h : NumberLike s) :
    ∃ c q, s = c :: q ∧ (c = '+' ∨ c = '-' ∨ c = '.' ∨ isDecDigit c = true) := by
  obtain ⟨sg, k, pt, d, t, hs, hp, hd, rfl⟩ := h
  have hd' := isDigit_iff.1.mp hd
  rcases sign_char hs with rfl | ⟨c, rfl, hc⟩
  · rcases hp with rfl | rfl
    · exact ⟨d, t, rfl, by simp [hd']⟩
    · exact ⟨_, _, rfl, by simp⟩
  · exact ⟨c, _, rfl, by rcases hc with rfl | rfl <;> simp⟩

theorem numberLike_head_facts {c : Char} (h : c = '+' ∨ c = '-' ∨ c = '.' ∨ isDecDigit c = true) :
    c ≠ '#' ∧ c ≠ '"' ∧ c ≠ '(' ∧ c ≠ '/' ∧ c ≠ '\\' ∧ IdentChar c := by
  rcases h with rfl | rfl | rfl | h
  · decide
  · decide
  · decide
  · have := dec_facts (hex_of_dec h)
    exact ⟨this.2.2.2.1, this.2.2.2.2.1, this.2.2.2.2.2.1, this.2.2.2.2.2.2.1, this.2.2.2.2.2.2.2,
      isDisallowedIdentChar_iff.mp (hex_not_disallowed (hex_of_dec h))⟩

theorem stringP_num {s : Str} (h : NumberLike s) : stringP s = .back := by
  unfold stringP
  obtain ⟨c, q, rfl, hc⟩ := numberLike_head h
  have hf := numberLike_head_facts hc
  rw [alt_right (bind_back (identString_num h)),
    alt_right (bind_back (rawString_back (by rintro q ⟨⟩; exact hf.1 rfl)))]
  exact bind_back (quotedString_back (by rintro q ⟨⟩; exact hf.2.1 rfl))

theorem identifier_back {total : Nat} {s : Str} (h : stringP s = .back) : identifier total s = .back := by
  unfold identifier
  rw [bind_here]
  exact bind_back h

theorem identifier_eq {total : Nat} {t r v : Str} (h : stringP (t ++ r) = .ok v r) :
    identifier total (t ++ r) = .ok ⟨v, some t, spanOf total (t ++ r) r⟩ r := by
  unfold identifier
  rw [bind_here, bind_eq h, bind_here, taken_append]
  rfl

theorem keyword_back {s : Str} (h : ∀ q, s ≠ '#' :: q) : keyword s = .back :=
  bind_back (lit_back.mpr h)

section
variable [FloatIO]

omit [FloatIO] in
theorem tyP_back {total : Nat} {s : Str} (h : ∀ q, s ≠ '(' :: q) : tyP total s = .back :=
  bind_back (lit_back.mpr h)

/-- The entry made of a value without annotation. -/
def plainEntry (total : Nat) (v : Value) (s r : Str) : Entry :=
  { ty := none, value := v, name := none, format := some { valueRepr := taken s r },
    span := spanOf total s r }

theorem value_eq {total : Nat} {s r : Str} {v : Value} (hp : ∀ q, s ≠ '(' :: q)
    (h : valueBody s = .ok v r) : value total s = .ok (plainEntry total v s r) r := by
  unfold value
  rw [bind_here, bind_eq (opt_none (bind_back (tyP_back hp))), bind_here, bind_eq h, bind_here]
  rfl

theorem value_back {total : Nat} {s : Str} (hp : ∀ q, s ≠ '(' :: q) (h : valueBody s = .back) :
    value total s = .back := by
  unfold value
  rw [bind_here, bind_eq (opt_none (bind_back (tyP_back hp))), bind_here]
  exact bind_back h

theorem value_cut {total : Nat} {s : Str} (hp : ∀ q, s ≠ '(' :: q) (h : valueBody s = .cut) :
    value total s = .cut := by
  unfold value
  rw [bind_here, bind_eq (opt_none (bind_back (tyP_back hp))), bind_here]
  exact bind_cut h

theorem entryBody_value {total : Nat} {s : Str} (h : stringP s = .back) :
    entryBody total s = value total s := by
  unfold entryBody
  rw [bind_eq (opt_none (identifier_back h))]

/-! ### Integers -/

omit [FloatIO] in
theorem intLit_numberLike {t r : Str} {v : Int} (h : IntLit t v) : NumberLike (t ++ r) := by
  obtain ⟨sg, k, pre, radix, c, ds, hs, hb, hc, hds, rfl, rfl⟩ := h
  have z : IsDigit 10 '0' := isDigit_iff.1.mpr (by decide)
  cases hb with
  | dec => exact ⟨sg, k, [], c, ds ++ r, hs, Or.inl rfl, hc, by simp⟩
  | _ => exact ⟨sg, k, [], '0', _, hs, Or.inl rfl, z, by
          simp only [List.append_assoc, List.cons_append, List.nil_append]; rfl⟩

omit [FloatIO] in
theorem intLit_signum {t r : Str} {v : Int} (h : IntLit t v) (hr : Stop r) :
    ∃ b q, signum (t ++ r) = .ok b q ∧
      ∀ c x, q.dropWhile (isGrp isDecDigit) = c :: x → c ≠ '.' ∧ c ≠ 'e' ∧ c ≠ 'E' := by
  obtain ⟨sg, k, pre, radix, c, ds, hs, hb, hc, hds, rfl, rfl⟩ := h
  have pref : ∀ {x : Char} {q : Str}, isGrp isDecDigit x = false → x ≠ '.' ∧ x ≠ 'e' ∧ x ≠ 'E' →
      ∃ b q', signum (sg ++ '0' :: x :: q) = .ok b q' ∧
      ∀ c y, q'.dropWhile (isGrp isDecDigit) = c :: y → c ≠ '.' ∧ c ≠ 'e' ∧ c ≠ 'E' := by
    intro x q hx hx'
    obtain ⟨b, hsig, _⟩ := signum_sign hs (c := '0') (q := x :: q) (by decide) (by decide)
    refine ⟨b, _, hsig, ?_⟩
    intro c y e
    rw [List.dropWhile_cons_of_pos (by decide), List.dropWhile_cons_of_neg (by simp [hx])] at e
    cases e
    exact hx'
  have hd := digits_of hb hc hds
  cases hb with
  | dec =>
    have hd' : Digits isDecDigit c ds := hd
    have hfc := dec_facts (hex_of_dec hd'.1)
    obtain ⟨b, hsig, _⟩ := signum_sign hs (c := c) (q := ds ++ r) hfc.1 hfc.2.1
    refine ⟨b, c :: (ds ++ r), by rw [← hsig]; simp, ?_⟩
    rw [(take_digits hd' (hr.grp (fun _ => hex_of_dec))).2]
    intro x y e
    have := hr x y e
    refine ⟨?_, ?_, ?_⟩ <;> rintro rfl <;> exact absurd this (by decide)
  | hex => simpa using pref (x := 'x') (q := c :: ds ++ r) (by decide) (by decide)
  | hexU => simpa using pref (x := 'X') (q := c :: ds ++ r) (by decide) (by decide)
  | oct => simpa using pref (x := 'o') (q := c :: ds ++ r) (by decide) (by decide)
  | octU => simpa using pref (x := 'O') (q := c :: ds ++ r) (by decide) (by decide)
  | bin => simpa using pref (x := 'b') (q := c :: ds ++ r) (by decide) (by decide)
  | binU => simpa using pref (x := 'B') (q := c :: ds ++ r) (by decide) (by decide)

/-- A value text that starts like a number is read by `number`. -/
theorem valueBody_num {s : Str} (h : NumberLike s) :
    valueBody s = (number <+> (do let s ← stringP; return .string s)) s := by
  obtain ⟨c, q, rfl, hc⟩ := numberLike_head h
  have hf := numberLike_head_facts hc
  unfold valueBody
  rw [alt_right (keyword_back (by rintro q ⟨⟩; exact hf.1 rfl))]

theorem valueBody_int {t r : Str} {v : Int} (h : IntLit t v) (hr : Ends r) (hv : v.natAbs ≤ i128Max) :
    ∃ i : I128, valueBody (t ++ r) = .ok (.integer i) r ∧ i.val = v := by
  obtain ⟨i, h1, h2⟩ := (int_forward h hr).1 hv
  obtain ⟨b, q, h3, h4⟩ := intLit_signum h hr.stop
  refine ⟨i, ?_, h2⟩
  rw [valueBody_num (intLit_numberLike h)]
  apply alt_left
  unfold number
  rw [alt_right (float_back h3 h4)]
  exact h1

theorem valueBody_int_out {t r : Str} {v : Int} (h : IntLit t v) (hr : Ends r) (hv : ¬ v.natAbs ≤ i128Max) :
    valueBody (t ++ r) = .back ∨ valueBody (t ++ r) = .cut := by
  have h1 := (int_forward h hr).2 hv
  obtain ⟨b, q, h3, h4⟩ := intLit_signum h hr.stop
  rw [valueBody_num (intLit_numberLike h)]
  have hn : number (t ++ r) = integerValue (t ++ r) := by
    unfold number
    rw [alt_right (float_back h3 h4)]
  rcases h1 with h1 | h1
  · left
    rw [alt_right (hn.trans h1)]
    exact bind_back (stringP_num (intLit_numberLike h))
  · right
    exact alt_cut (hn.trans h1)

/-! ### A whole entry -/

omit [FloatIO] in
/-- `s` does not start with white space, a newline, `/` or `\`. -/
def Solid (s : Str) : Prop := ∀ c q, s = c :: q → ¬ Blank c ∧ c ≠ '/' ∧ c ≠ '\\'

omit [FloatIO] in
theorem Solid.nil : Solid [] := by rintro _ _ ⟨⟩

omit [FloatIO] in
theorem Solid.nodeSpace {s : Str} (h : Solid s) : nodeSpace s = .back := by
  apply nodeSpace_back_of
  · intro c q e
    have := (h c q e).1
    cases hh : isUnicodeSpace c
    · rfl
    · exact absurd (Or.inl (isUnicodeSpace_iff.mp hh)) this
  · intro q e; exact (h _ _ e).2.1 rfl
  · intro q e; exact (h _ _ e).2.2 rfl

omit [FloatIO] in
theorem Solid.lineSpace {s : Str} (h : Solid s) : lineSpace s = .back := by
  unfold Kdl.lineSpace
  rw [alt_right h.nodeSpace, alt_right (newline_back fun c q e hn => (h c q e).1 (Or.inr hn))]
  exact bind_back (lit_back.mpr fun q e => (h _ _ e).2.1 rfl)

omit [FloatIO] in
theorem Solid.slashdash {s : Str} (h : Solid s) : slashdash s = .back :=
  bind_back (lit_back.mpr fun q e => (h _ _ e).2.1 rfl)

omit [FloatIO] in
theorem Solid.nodeSpace0 {s : Str} (h : Solid s) : nodeSpace0 s = .ok () s := void_eq (rep0_nil h.nodeSpace)

omit [FloatIO] in
theorem sep1_back {α β : Type} {p : P α} {sep : P β} {s : Str} (h : p s = .back) : sep1 p sep s = .back :=
  bind_back h

omit [FloatIO] in
theorem takeP_nil {α : Type} {p : P α} {s : Str} {a : α} (h : p s = .ok a s) : takeP p s = .ok [] s :=
  takeP_eq (t := []) (r := s) h

omit [FloatIO] in
theorem Solid.entryLeading {entry : P Entry} {s : Str} (h : Solid s) : entryLeadingF entry s = .ok [] s := by
  unfold entryLeadingF
  have := takeP_eq (p := do Kdl.nodeSpace0; opt (do slashdashedEntriesF entry; nodeSpace1)) (t := []) (r := s)
    (a := none) (by
      rw [List.nil_append, bind_eq h.nodeSpace0]
      apply opt_none
      apply bind_back
      unfold slashdashedEntriesF
      exact void_back (sep1_back (bind_back h.slashdash)))
  exact this

theorem nodeEntry_solid {total : Nat} {s : Str} (h : Solid s) :
    nodeEntry total s = (do
      let e ← entryBody total
      let r ← here
      return { e with
        format := e.format.map fun f => { f with leading := [] }
        span := spanOf total s r } : P Entry) s := by
  rw [nodeEntry_unfold]
  unfold nodeEntryF
  rw [bind_eq h.entryLeading, bind_here]

theorem nodeEntry_solid_ok {total : Nat} {s r : Str} {e : Entry} (h : Solid s)
    (hb : entryBody total s = .ok e r) :
    nodeEntry total s = .ok { e with
        format := e.format.map fun f => { f with leading := [] }
        span := spanOf total s r } r := by
  rw [nodeEntry_solid h, bind_eq hb, bind_here]
  rfl

/-- Parsing the whole text of an entry without surrounding white space. -/
theorem entryParse_ok {s : Str} {e : Entry} (h : Solid s) (hb : entryBody (utf8Len s) s = .ok e []) :
    ∃ e', Entry.parse s = .ok e' ∧ e'.value = e.value ∧ e'.name = e.name ∧ e'.ty = e.ty := by
  have h2 : takeP (rep0 (lineSpace <+> nodeSpace)) [] = .ok [] [] :=
    takeP_nil (rep0_nil (p := lineSpace <+> nodeSpace) (by
      rw [alt_right Solid.nil.lineSpace]; exact Solid.nil.nodeSpace))
  have h3 : ∃ e', paddedNodeEntry (utf8Len s) s = .ok e' [] ∧
      e'.value = e.value ∧ e'.name = e.name ∧ e'.ty = e.ty := by
    unfold paddedNodeEntry
    rw [bind_here, bind_eq (takeP_nil (rep0_nil h.lineSpace)), bind_eq (nodeEntry_solid_ok h hb),
      bind_eq h2, bind_here]
    exact ⟨_, rfl, rfl, rfl, rfl⟩
  obtain ⟨e', h4, h5⟩ := h3
  exact ⟨e', tryParse_ok.mpr h4, h5⟩

theorem entryParse_err {s : Str} (h : Solid s)
    (hb : entryBody (utf8Len s) s = .back ∨ entryBody (utf8Len s) s = .cut) :
    Entry.parse s = .err := by
  unfold Entry.parse tryParse
  have e : paddedNodeEntry (utf8Len s) s = .back ∨ paddedNodeEntry (utf8Len s) s = .cut := by
    unfold paddedNodeEntry
    rw [bind_here, bind_eq (takeP_nil (rep0_nil h.lineSpace))]
    rcases hb with hb | hb
    · left
      exact bind_back (by rw [nodeEntry_solid h]; exact bind_back hb)
    · right
      exact bind_cut (by rw [nodeEntry_solid h]; exact bind_cut hb)
  rcases e with e | e
  · rw [bind_back e]
  · rw [bind_cut e]

end

end Kdl
