import Verif.Lemmas.Parser.DocumentedLost
import Verif.Lemmas.Parser.Jam
/-
A value that is directly followed by what may not follow it.
-/

namespace Kdl
open Spec

/-! ### Numbers -/

theorem intAlt_cut {p : P I128} {s r : Str} {x : I128} (h : p s = .ok x r) (hr : ¬ Ends r) :
    (do let i ← p; valueTerminatorCheck; return i : P I128) s = .cut := by
  rw [bind_eq h]
  exact bind_cut (check_cut hr)

theorem intDec_cut {sg : Str} {k : Int} (hs : Sign sg k) {c : Char} {ds r : Str} (hd' : Digits isDecDigit c ds) (hst : Stop r)
    (hr : ¬ Ends r) (hm : litVal 10 (c :: ds) ≤ i128Max) : integerValue (sg ++ c :: (ds ++ r)) = .cut := by
  have hfc := dec_facts (hex_of_dec hd'.1)
  obtain ⟨b, hsig, hbk⟩ := signum_sign hs (c := c) (q := ds ++ r) hfc.1 hfc.2.1
  have hrd := reads_udecimal hd' (hst.grp (fun _ => hex_of_dec))
  have hback : uhex (c :: (ds ++ r)) = .back ∧ uoctal (c :: (ds ++ r)) = .back ∧ ubinary (c :: (ds ++ r)) = .back := by
    have hfacts : ∀ d q, ds ++ r = d :: q → (d ≠ 'x' ∧ d ≠ 'X') ∧ (d ≠ 'o' ∧ d ≠ 'O') ∧ (d ≠ 'b' ∧ d ≠ 'B') := by
      intro d q e
      cases ds with
      | nil =>
        have := hst d q e
        refine ⟨⟨?_, ?_⟩, ⟨?_, ?_⟩, ⟨?_, ?_⟩⟩ <;> rintro rfl <;> revert this <;> decide
      | cons d' ds' =>
        cases e
        have := hd'.2 d (List.mem_cons_self ..)
        refine ⟨⟨?_, ?_⟩, ⟨?_, ?_⟩, ⟨?_, ?_⟩⟩ <;> rintro rfl <;> revert this <;> decide
    cases hq : ds ++ r with
    | nil => exact prefixed_back_one
    | cons d q =>
      have := hfacts d q hq
      exact ⟨prefixed_back.1 this.1, prefixed_back.2.1 this.2.1, prefixed_back.2.2 this.2.2⟩
  have h1 : hex (sg ++ c :: (ds ++ r)) = .back := signedP_back hsig hback.1
  have h2 : octal (sg ++ c :: (ds ++ r)) = .back := signedP_back hsig hback.2.1
  have h3 : binary (sg ++ c :: (ds ++ r)) = .back := signedP_back hsig hback.2.2
  obtain ⟨x, h4, h5⟩ := hrd.1 hm
  obtain ⟨y, h6, _⟩ := signedP_ok hsig hbk hs.cases h4 h5
  unfold integerValue
  apply bind_cut
  rw [alt_right (bind_back h1), alt_right (bind_back h2), alt_right (bind_back h3)]
  exact intAlt_cut h6 hr

theorem intHex_cut {sg : Str} {k : Int} (hs : Sign sg k) {x c : Char} {ds r : Str} (hx : x = 'x' ∨ x = 'X') (hd : Digits isHexDigit c ds)
    (hst : Stop r) (hr : ¬ Ends r) (hm : litVal 16 (c :: ds) ≤ i128Max) : integerValue (sg ++ '0' :: x :: c :: (ds ++ r)) = .cut := by
  obtain ⟨b, hsig, hbk⟩ := signum_sign hs (c := '0') (q := x :: c :: (ds ++ r)) (by decide) (by decide)
  obtain ⟨v, h4, h5⟩ := (reads_uhex hx hd (hst.grp (fun _ h => h))).1 hm
  obtain ⟨y, h6, _⟩ := signedP_ok hsig hbk hs.cases h4 h5
  unfold integerValue
  apply bind_cut
  exact alt_cut (intAlt_cut h6 hr)

theorem intOct_cut {sg : Str} {k : Int} (hs : Sign sg k) {x c : Char} {ds r : Str} (hx : x = 'o' ∨ x = 'O') (hd : Digits isOctDigit c ds)
    (hst : Stop r) (hr : ¬ Ends r) (hm : litVal 8 (c :: ds) ≤ i128Max) : integerValue (sg ++ '0' :: x :: c :: (ds ++ r)) = .cut := by
  obtain ⟨b, hsig, hbk⟩ := signum_sign hs (c := '0') (q := x :: c :: (ds ++ r)) (by decide) (by decide)
  obtain ⟨v, h4, h5⟩ := (reads_uoctal hx hd (hst.grp (fun _ h => hex_of_dec (dec_of_oct h)))).1 hm
  obtain ⟨y, h6, _⟩ := signedP_ok hsig hbk hs.cases h4 h5
  have h1 : hex (sg ++ '0' :: x :: c :: (ds ++ r)) = .back :=
    signedP_back hsig (prefixed_back.1 (by rcases hx with rfl | rfl <;> decide))
  unfold integerValue
  apply bind_cut
  rw [alt_right (bind_back h1)]
  exact alt_cut (intAlt_cut h6 hr)

theorem intBin_cut {sg : Str} {k : Int} (hs : Sign sg k) {x c : Char} {ds r : Str} (hx : x = 'b' ∨ x = 'B') (hd : Digits isBinDigit c ds)
    (hst : Stop r) (hr : ¬ Ends r) (hm : litVal 2 (c :: ds) ≤ i128Max) : integerValue (sg ++ '0' :: x :: c :: (ds ++ r)) = .cut := by
  obtain ⟨b, hsig, hbk⟩ := signum_sign hs (c := '0') (q := x :: c :: (ds ++ r)) (by decide) (by decide)
  obtain ⟨v, h4, h5⟩ := (reads_ubinary hx hd (hst.grp (fun _ h => hex_of_dec (dec_of_bin h)))).1 hm
  obtain ⟨y, h6, _⟩ := signedP_ok hsig hbk hs.cases h4 h5
  have h1 : hex (sg ++ '0' :: x :: c :: (ds ++ r)) = .back :=
    signedP_back hsig (prefixed_back.1 (by rcases hx with rfl | rfl <;> decide))
  have h2 : octal (sg ++ '0' :: x :: c :: (ds ++ r)) = .back :=
    signedP_back hsig (prefixed_back.2.1 (by rcases hx with rfl | rfl <;> decide))
  unfold integerValue
  apply bind_cut
  rw [alt_right (bind_back h1), alt_right (bind_back h2)]
  exact alt_cut (intAlt_cut h6 hr)

theorem intLit_cut {t r : Str} {v : Int} (h : IntLit t v) (hv : v.natAbs ≤ i128Max) (hst : Stop r) (hr : ¬ Ends r) :
    integerValue (t ++ r) = .cut := by
  obtain ⟨sg, k, pre, radix, c, ds, hs, hb, hc, hds, rfl, rfl⟩ := h
  have hd := digits_of hb hc hds
  rw [natAbs_sign hs.cases] at hv
  cases hb with
  | dec =>
    have e : sg ++ [] ++ c :: ds ++ r = sg ++ c :: (ds ++ r) := by simp
    rw [e]; exact intDec_cut hs hd hst hr hv
  | hex => simpa using intHex_cut hs (Or.inl rfl) hd hst hr hv
  | hexU => simpa using intHex_cut hs (Or.inr rfl) hd hst hr hv
  | oct => simpa using intOct_cut hs (Or.inl rfl) hd hst hr hv
  | octU => simpa using intOct_cut hs (Or.inr rfl) hd hst hr hv
  | bin => simpa using intBin_cut hs (Or.inl rfl) hd hst hr hv
  | binU => simpa using intBin_cut hs (Or.inr rfl) hd hst hr hv

section
variable [FloatIO]

/-- A number that is not followed by what may follow a value is a fatal error. -/
theorem number_cut {t r : Str} {v : Value} (h : NumText t v) (hst : Stop r) (hr : ¬ Ends r) : number (t ++ r) = .cut := by
  unfold number
  cases h with
  | @int i h hi =>
    obtain ⟨b, q, h3, h4⟩ := intLit_signum h hst
    rw [alt_right (float_back h3 h4)]
    exact intLit_cut h (by exact_mod_cast hi) hst hr
  | float h =>
    apply alt_cut
    unfold floatValue
    rw [bind_eq (takeP_eq (floatLit_read h hst))]
    exact bind_cut (check_cut hr)

/-! ### A slashdash behind a value -/

omit [FloatIO] in
theorem slash_stop (y : Str) : Stop ('/' :: '-' :: y) := by
  rintro c q ⟨⟩
  decide

omit [FloatIO] in
theorem slash_not_ends (y : Str) : ¬ Ends ('/' :: '-' :: y) := by
  rintro ⟨u, q, h⟩
  have : valueTerminator ('/' :: '-' :: y) = .back := by rfl
  rw [this] at h
  cases h

/-- Strings in front of a slashdash are read neither as keywords nor as numbers. -/
theorem valueBody_string_cut {t v r : Str} (h : StrText t v) (hs : Stop r) (hr : ¬ Ends r) (hq : ∀ q, r ≠ '"' :: q) :
    valueBody (t ++ r) = .cut := by
  have hc := stringP_cut h hs hr hq
  have quote : ∀ {s : Str} {c : Char} {q : Str}, s = c :: q → (c = '"' ∨ c = '#') → number s = .back := by
    rintro s c q rfl hc
    refine number_back (signum_none ?_ ?_) ?_
    · rcases hc with rfl | rfl <;> decide
    · rcases hc with rfl | rfl <;> decide
    · intro c' q' e
      cases e
      rcases hc with rfl | rfl <;> rfl
  have hash : ∀ {c : Char} {q : Str}, (c = '"' ∨ c = '#') → keyword ('#' :: c :: q) = .back := by
    intro c q hc
    unfold keyword
    rw [bind_eq (lit_one _ _)]
    exact bind_back (notP_back (satisfy_eq (by rcases hc with rfl | rfl <;> rfl)))
  have key : keyword (t ++ r) = .back ∧ number (t ++ r) = .back := by
    cases h with
    | bare h =>
      have hi := identString_eq h hs
      obtain ⟨b, q', h1, h2⟩ := identString_signum hi
      refine ⟨keyword_back fun q e => ?_, number_back h1 h2⟩
      rw [e, identString_back (by rintro c q e; cases e; decide)] at hi
      cases hi
    | quoted => exact ⟨keyword_back (by rintro q e; cases e), quote rfl (Or.inl rfl)⟩
    | multi => exact ⟨keyword_back (by rintro q e; cases e), quote rfl (Or.inl rfl)⟩
    | @raw n _ =>
      cases n with
      | zero => exact ⟨hash (Or.inl rfl), quote rfl (Or.inr rfl)⟩
      | succ n => exact ⟨hash (Or.inr rfl), quote rfl (Or.inr rfl)⟩
    | @rawMulti n _ =>
      cases n with
      | zero => exact ⟨hash (Or.inl rfl), quote rfl (Or.inr rfl)⟩
      | succ n => exact ⟨hash (Or.inr rfl), quote rfl (Or.inr rfl)⟩
  unfold valueBody
  rw [alt_right key.1, alt_right key.2]
  exact bind_cut hc

/-- A value that is no keyword, in front of a slashdash. -/
theorem valueBody_touch {t : Str} {v : Value} (h : ValText t v) (hk : (t, v) ∉ keywords) (y : Str) :
    valueBody (t ++ '/' :: '-' :: y) = .cut ∧ (stringP (t ++ '/' :: '-' :: y) = .cut ∨ stringP (t ++ '/' :: '-' :: y) = .back) := by
  cases h with
  | str h =>
    exact ⟨valueBody_string_cut h (slash_stop y) (slash_not_ends y) (by rintro _ ⟨⟩),
      Or.inl (stringP_cut h (slash_stop y) (slash_not_ends y) (by rintro _ ⟨⟩))⟩
  | num h =>
    have hn := numText_numberLike (r := '/' :: '-' :: y) h
    refine ⟨?_, Or.inr (stringP_num hn)⟩
    rw [valueBody_num hn]
    exact alt_cut (number_cut h (slash_stop y) (slash_not_ends y))
  | keyword h => exact absurd h hk

/-- A value with its annotation, where the value is a fatal error. -/
theorem value_at_cut {ty : Option Str} {tt vt r : Str} (ht : TyText vt ty tt) (hs : Starts vt) (hp : ∀ q, vt ++ r ≠ '(' :: q)
    (hv : valueBody (vt ++ r) = .cut) (total : Nat) : value total (tt ++ (vt ++ r)) = .cut := by
  cases ht with
  | none => exact value_cut hp hv
  | @some i it b a f hi hb ha hf =>
    have hne : vt ≠ [] := by
      obtain ⟨c, q, rfl, _⟩ := hs
      simp
    obtain ⟨id, h1, h2⟩ := tyP_tok (StrTok.text hi) (hb.sp hi.ne) (ha.sp (by simp)) total (f ++ (vt ++ r))
    unfold Kdl.value
    simp only [List.cons_append, List.append_assoc] at h1 ⊢
    rw [bind_here, bind_eq (opt_some (by rw [bind_eq h1, bind_eq ((hf.sp hne).take (hs.append r).solid)]; rfl)), bind_here]
    exact bind_cut hv

omit [FloatIO] in
theorem identifier_cut {total : Nat} {s : Str} (h : stringP s = .cut) : identifier total s = .cut := by
  unfold identifier
  rw [bind_here]
  exact bind_cut h

omit [FloatIO] in
theorem opt_cut {α : Type} {p : P α} {s : Str} (h : p s = .cut) : opt p s = .cut := by
  unfold Kdl.opt
  rw [h]

omit [FloatIO] in
theorem cutErr_cut {α : Type} {p : P α} {s : Str} (h : p s = .cut) : cutErr p s = .cut := by
  unfold Kdl.cutErr
  rw [h]

/-- An entry that does not end with a keyword, in front of a slashdash. -/
theorem entryBody_touch {d : SEntry Value} {t : Str} (h : EntryText d t) (hk : ¬ EntryEnd true d t) (total : Nat) (y : Str) :
    entryBody total (t ++ '/' :: '-' :: y) = .cut := by
  cases h with
  | @arg ty tt vt v ht hv =>
    obtain ⟨h1, h2⟩ := valueBody_touch (show ValText vt v from hv) (fun h => hk (.arg ht h)) y
    have hT := ValTok.text (show ValText vt v from hv)
    have hp : ∀ q, vt ++ '/' :: '-' :: y ≠ '(' :: q := by
      intro q e
      have := (hT.2 [] Ends.nil).1
      obtain ⟨c, x, rfl, _⟩ := hT.1
      exact this x (by rw [(List.cons.inj e).1]; simp)
    have hc := value_at_cut ht hT.1 hp h1 total
    rw [List.append_assoc]
    cases ht with
    | none =>
      rcases h2 with h2 | h2
      · unfold entryBody
        exact bind_cut (opt_cut (identifier_cut h2))
      · rw [List.nil_append, entryBody_value h2]
        exact hc
    | some =>
      rw [entryBody_value]
      · exact hc
      · apply stringP_back
        · rintro c q e
          rw [← (List.cons.inj e).1]
          decide
        · rintro q e
          exact absurd (List.cons.inj e).1 (by decide)
        · rintro q e
          exact absurd (List.cons.inj e).1 (by decide)
  | @prop ty kn kt ak ae tt vt v hkt p1 p2 ht hv =>
    obtain ⟨h1, _⟩ := valueBody_touch (show ValText vt v from hv) (fun h => hk (.prop hkt p1 p2 ht h)) y
    have hT := ValTok.text (show ValText vt v from hv)
    have hp : ∀ q, vt ++ '/' :: '-' :: y ≠ '(' :: q := by
      intro q e
      have := (hT.2 [] Ends.nil).1
      obtain ⟨c, x, rfl, _⟩ := hT.1
      exact this x (by rw [(List.cons.inj e).1]; simp)
    have hc := value_at_cut ht hT.1 hp h1 total
    have hs' : Starts (tt ++ vt) := (TyTok.text ht hv.text.ne).starts hT.1
    have hne : tt ++ vt ≠ [] := by
      have := hv.text.ne
      simp [this]
    generalize '/' :: '-' :: y = r at *
    have e1 := solid_lit (c := '=') (by simp) (ae ++ (tt ++ (vt ++ r)))
    have e2 := ends_lit (c := '=') (by simp) (ae ++ (tt ++ (vt ++ r)))
    have hak := p1.sp (by simp)
    have he : Ends (ak ++ '=' :: (ae ++ (tt ++ (vt ++ r)))) := (hak _ e1).ends fun _ => e2
    have e3 : equalsSign ('=' :: (ae ++ (tt ++ (vt ++ r)))) = .ok () (ae ++ (tt ++ (vt ++ r))) := lit_one _ _
    have hst : Starts (tt ++ (vt ++ r)) := by
      have := hs'.append r
      rwa [List.append_assoc] at this
    unfold entryBody
    simp only [List.append_assoc, List.cons_append]
    rw [bind_eq (opt_some (identifier_eq (StrTok.text hkt _ he)))]
    simp only
    rw [bind_eq (opt_some (by rw [bind_eq (hak.take e1), bind_eq e3]; rfl))]
    simp only
    rw [bind_eq ((p2.sp hne).take hst.solid)]
    exact bind_cut (cutErr_cut hc)

/-! ### Entries -/

/-- The entries of a node cannot be read. -/
def BadRest (y : Str) : Prop := AfterEntry y ∧ ∀ total, Fails (do peek nodeSpace1; nodeEntry total : P Entry) y

omit [FloatIO] in
theorem Fails.rep0 {α : Type} {p : P α} {s : Str} (h : Fails p s) : Fails (rep0 p) s := by
  unfold Fails
  rw [rep0_unfold]
  rcases h with h | h <;> rw [h] <;> simp

theorem entries_fails {ds : List (SEntry Value)} {T y : Str} (h : EntsTok id ds T) (hy : BadRest y) (total : Nat) :
    AfterEntry (T ++ y) ∧ Fails (entriesP total) (T ++ y) := by
  unfold entriesP
  induction h with
  | nil => exact ⟨hy.1, (hy.2 total).rep0⟩
  | @cons w t T d ds hw ht hT ih =>
    obtain ⟨e, h3, h4⟩ := ht.2 total (T ++ y) ih.1
    rw [List.append_assoc, List.append_assoc]
    obtain ⟨⟨q, hq⟩, hl, ha⟩ := hw total (t ++ (T ++ y)) (ht.1.append _)
    obtain ⟨e', h5, h6⟩ := entryLeading_nodeEntry hl h3
    refine ⟨ha, ?_⟩
    have h7 : (do peek nodeSpace1; nodeEntry total : P Entry) (w ++ (t ++ (T ++ y))) = .ok e' (T ++ y) := by
      rw [bind_eq (peek_eq hq)]; exact h5
    unfold Fails
    rw [rep0_unfold, h7]
    simp only
    split
    · rcases ih.2 with h | h <;> rw [h] <;> simp
    · simp

/-- A node whose entries cannot be read. -/
theorem baseNode_bad {ty : Option Str} {tt nm nt T y : Str} {ds : List (SEntry Value)} (h1 : TyTok ty tt) (h2 : StrTok nm nt)
    (h3 : EntsTok id ds T) (hy : BadRest y) (total : Nat) (n : Node) (z : Str) :
    baseNode total (tt ++ (nt ++ (T ++ y))) ≠ .ok n z := by
  intro h
  obtain ⟨hY, hf⟩ := entries_fails h3 hy total
  have hs := h1.starts (h2.starts.append (T ++ y))
  obtain ⟨e1, e2⟩ := hs.notEnd
  obtain ⟨o, q1, af, e3, e4, e5⟩ := h1.parse (h2.starts.append (T ++ y)) (h2.not_paren _) total
  have e8 := identifier_eq (total := total) (h2 _ hY.1)
  have hne : nt ≠ [] := by
    obtain ⟨c, q, rfl, _⟩ := h2.head
    simp
  rw [baseNode_unfold] at h
  unfold baseNodeF at h
  rw [bind_eq e1, bind_here, bind_eq e2, bind_eq e3, bind_eq e4, bind_eq (cutErr_eq e8)] at h
  simp only [Option.some.injEq, hne, if_false] at h
  exact hf.bind.not_ok _ _ h

/-- A name in front of a slashdash. -/
theorem baseNode_name {ty : Option Str} {tt nm nt : Str} (h1 : TyTok ty tt) (h2 : StrText nt nm) (y : Str) (total : Nat) (n : Node) (z : Str) :
    baseNode total (tt ++ (nt ++ '/' :: '-' :: y)) ≠ .ok n z := by
  intro h
  have h2' := StrTok.text h2
  have hs := h1.starts (h2'.starts.append ('/' :: '-' :: y))
  obtain ⟨e1, e2⟩ := hs.notEnd
  obtain ⟨o, q1, af, e3, e4, e5⟩ := h1.parse (h2'.starts.append ('/' :: '-' :: y)) (h2'.not_paren _) total
  have e8 := identifier_cut (total := total) (stringP_cut h2 (slash_stop y) (slash_not_ends y) (by rintro _ ⟨⟩))
  rw [baseNode_unfold] at h
  unfold baseNodeF at h
  rw [bind_eq e1, bind_here, bind_eq e2, bind_eq e3, bind_eq e4, bind_cut (cutErr_cut e8)] at h
  cases h

/-- The last entry is no keyword and in front of a slashdash. -/
theorem badRest_entry {d : SEntry Value} {w t : Str} (hw : EntryLead t w) (h : EntryText d t) (hk : ¬ EntryEnd true d t) (y : Str) :
    BadRest (w ++ (t ++ '/' :: '-' :: y)) := by
  have ht := (EntTok.text h).1
  have hl := ELead.text hw ht
  refine ⟨(hl 0 _ (ht.append _)).2.2, fun total => ?_⟩
  obtain ⟨⟨q, hq⟩, hl, _⟩ := hl total _ (ht.append ('/' :: '-' :: y))
  refine Fails.after (peek_eq hq) ?_
  have hf : Fails (nodeEntryF total (nodeEntry total)) (w ++ (t ++ '/' :: '-' :: y)) := ?_
  · unfold Fails at hf ⊢
    rwa [nodeEntry_unfold]
  unfold nodeEntryF
  refine Fails.after hl ?_
  unfold Fails
  rw [bind_here]
  exact Or.inl (bind_cut (entryBody_touch h hk total y))

/-! ### Slashdashed entries -/

theorem nodeEntry_fails {l s r : Str} {total : Nat} (hl : entryLeadingF (nodeEntry total) s = .ok l r) (hb : entryBody total r = .cut) :
    Fails (nodeEntry total) s := by
  have hf : Fails (nodeEntryF total (nodeEntry total)) s := ?_
  · unfold Fails at hf ⊢
    rwa [nodeEntry_unfold]
  unfold nodeEntryF
  refine Fails.after hl ?_
  unfold Fails
  rw [bind_here]
  exact Or.inl (bind_cut hb)

theorem sdEntry_one {b E r : Str} {d : SEntry Value} (hb : LSpace E b) (hE : EntryText d E) (total : Nat) :
    (After false r → ∃ x, sdEntry total ('/' :: '-' :: (b ++ (E ++ r))) = .ok x r) ∧
    (∀ y, ¬ EntryEnd true d E → r = '/' :: '-' :: y → Fails (sdEntry total) ('/' :: '-' :: (b ++ (E ++ r)))) := by
  have hT := EntTok.text hE
  have hs := hT.1.append r
  have hne : E ≠ [] := by
    obtain ⟨c, q, rfl, _⟩ := hT.1
    simp
  have e1 := slashdash_eq (hb.swap hne hs.solid.notNl) hs.solid.lineSpace
  refine ⟨fun hr => ?_, fun y hk e => ?_⟩
  · obtain ⟨e, h1, _⟩ := Spec.EntryEnd.reads (k := false) hE hr total
    obtain ⟨e', h2, _⟩ := entryLeading_nodeEntry (w := []) (hs.solid.entryLeading) h1
    refine ⟨e', ?_⟩
    unfold sdEntry
    rw [bind_eq e1]
    exact h2
  · subst e
    unfold sdEntry
    exact Fails.after e1 (nodeEntry_fails (hs.solid.entryLeading) (entryBody_touch hE hk total y))

theorem sdEntry_nest {b S w E r : Str} {d : SEntry Value} (hb : LSpace S b) (hS : SdEntries S) (hw : NSpace E w) (hne : w ≠ [])
    (hE : EntryText d E) (total : Nat) :
    (After false r → ∃ x, sdEntry total ('/' :: '-' :: (b ++ (S ++ (w ++ (E ++ r))))) = .ok x r) ∧
    (∀ y, ¬ EntryEnd true d E → r = '/' :: '-' :: y → Fails (sdEntry total) ('/' :: '-' :: (b ++ (S ++ (w ++ (E ++ r)))))) := by
  have hT := EntTok.text hE
  have hs := hT.1.append r
  have hne' : E ≠ [] := by
    obtain ⟨c, q, rfl, _⟩ := hT.1
    simp
  have hsl := hS.slash.append (w ++ (E ++ r))
  have e1 := slashdash_eq (hb.swap hS.slash.ne hsl.notNl) hsl.lineSpace
  have hw0 : Space0 w (E ++ r) := (hw.sp hne') _ hs.solid
  have e2 := entryLeading_slash (g := []) (WSp.nil _ hsl.nodeSpace) hS.run hw0 hne hs.notEq total (hs.sdEntry total)
  have e3 : S ++ (w ++ (E ++ r)) = (S ++ w) ++ (E ++ r) := by simp
  rw [List.nil_append, List.nil_append, e3] at e2
  refine ⟨fun hr => ?_, fun y hk e => ?_⟩
  · obtain ⟨e, h1, _⟩ := Spec.EntryEnd.reads (k := false) hE hr total
    obtain ⟨e', h2, _⟩ := entryLeading_nodeEntry e2 h1
    refine ⟨e', ?_⟩
    unfold sdEntry
    rw [bind_eq e1, e3]
    exact h2
  · subst e
    unfold sdEntry
    rw [e3] at e1 ⊢
    exact Fails.after e1 (nodeEntry_fails e2 (entryBody_touch hE hk total y))

/-- The last slashdashed entry is no keyword and in front of a slashdash. -/
theorem sd_fails {f : Bool} {S : Str} (h : SdEnd f S) : f = false → ¬ SdEnd true S → ∀ y total,
    Fails (sep1 (sdEntry total) nodeSpace1) (S ++ '/' :: '-' :: y) := by
  have lift : ∀ {s : Str} {total : Nat}, Fails (sdEntry total) s → Fails (sep1 (sdEntry total) nodeSpace1) s := by
    intro s total h
    unfold sep1
    exact h.bind
  induction h with
  | @one k b E d hb hE =>
    rintro rfl hn y total
    have := (sdEntry_one hb hE total).2 y (fun h => hn (.one hb h)) rfl
    exact lift (by simpa using this)
  | @nest k b S w E d hb hS hw hne hE ih =>
    rintro rfl hn y total
    have := (sdEntry_nest hb hS hw hne hE total).2 y (fun h => hn (.nest hb hS hw hne h)) rfl
    exact lift (by simpa using this)
  | @cons k b E w T d hb hE hw hne hT ih =>
    rintro rfl hn y total
    have hw0 := hw.slash hT.slash (r := '/' :: '-' :: y)
    obtain ⟨x, hx⟩ := (sdEntry_one hb hE total).1 (Or.inr (afterEntry_space hw0 hne (hT.slash.append _).notEq))
    obtain ⟨_, _, _, h3⟩ := hw0.space1 hne
    have hf := ih rfl (fun h => hn (.cons hb hE hw hne h)) y total
    unfold sep1
    exact Fails.after (r := w ++ (T ++ '/' :: '-' :: y)) (by simpa using hx)
      (Fails.sepMore (sdEntry_sfx total) h3 (len_lt hne) hf).bind
  | @nestCons k b S v E w T d hb hS hv hne' hE hw hne hT ihS ihT =>
    rintro rfl hn y total
    have hw0 := hw.slash hT.slash (r := '/' :: '-' :: y)
    obtain ⟨x, hx⟩ := (sdEntry_nest hb hS hv hne' hE total).1 (Or.inr (afterEntry_space hw0 hne (hT.slash.append _).notEq))
    obtain ⟨_, _, _, h3⟩ := hw0.space1 hne
    have hf := ihT rfl (fun h => hn (.nestCons hb hS hv hne' hE hw hne h)) y total
    unfold sep1
    exact Fails.after (r := w ++ (T ++ '/' :: '-' :: y)) (by simpa using hx)
      (Fails.sepMore (sdEntry_sfx total) h3 (len_lt hne) hf).bind

theorem badRest_slash {w S : Str} (hw : NSpace S w) (hne : w ≠ []) (h : SdEntries S) (hk : ¬ SdEnd true S) (y : Str) :
    BadRest (w ++ (S ++ '/' :: '-' :: y)) := by
  have hg := hw.slash h.slash (r := '/' :: '-' :: y)
  refine ⟨afterEntry_space hg hne (h.slash.append _).notEq, fun total => ?_⟩
  obtain ⟨_, _, _, hq⟩ := hg.space1 hne
  refine Fails.after (peek_eq hq) ?_
  have hf : Fails (nodeEntryF total (nodeEntry total)) (w ++ (S ++ '/' :: '-' :: y)) := ?_
  · unfold Fails at hf ⊢
    rwa [nodeEntry_unfold]
  unfold nodeEntryF
  refine Fails.bind ?_
  unfold entryLeadingF
  refine Fails.takeP (Fails.after hg (Fails.opt (Fails.bind ?_)))
  exact (sd_fails h rfl hk y total).void

/-- The last of the entries of a node. -/
theorem entries_last {ds : List (SEntry Value)} {T : Str} (h : EntriesText ds T) : (ds = [] ∧ T = []) ∨
    ∃ as e A u E, ds = as ++ [e] ∧ T = A ++ (u ++ E) ∧ EntriesText as A ∧ EntryLead E u ∧ EntryText e E := by
  induction h with
  | nil => exact Or.inl ⟨rfl, rfl⟩
  | @cons w t T d ds hw ht hT ih =>
    rcases ih with ⟨rfl, rfl⟩ | ⟨as, e, A, u, E, rfl, rfl, hA, hu, hE⟩
    · exact Or.inr ⟨[], d, [], w, t, rfl, by simp, .nil, hw, ht⟩
    · exact Or.inr ⟨d :: as, e, w ++ (t ++ A), u, E, rfl, by simp, .cons hw ht hA, hu, hE⟩

/-- A node whose last entry is no keyword, in front of a slashdash. -/
theorem baseNode_touch {ty : Option Str} {tt nm nt A u E : Str} {as : List (SEntry Value)} {e : SEntry Value}
    (h1 : TyText nt ty tt) (h2 : StrText nt nm) (h3 : EntriesText as A) (h4 : EntryLead E u) (h5 : EntryText e E)
    (hk : ¬ EntryEnd true e E) (y : Str) (total : Nat) (n : Node) (z : Str) :
    baseNode total (tt ++ (nt ++ (A ++ (u ++ (E ++ '/' :: '-' :: y))))) ≠ .ok n z :=
  baseNode_bad (TyTok.text h1 h2.ne) (StrTok.text h2) (EntsTok.text h3) (badRest_entry h4 h5 hk y) total n z

/-- A node in front of a slashdash: one after which a further node may follow, one that ends with
space, or one that is not read. -/
theorem node_touch {k : Bool} {d : SNode Value} {y B : Str} (h : Text (.node k d) ('/' :: '-' :: y) B) :
    Text (.node true d) ('/' :: '-' :: y) B ∨ (∃ B0 w, B = B0 ++ w ∧ w ≠ [] ∧ NSpace ('/' :: '-' :: y) w) ∨
      (Starts B ∧ ∀ total m z, baseNode total (B ++ '/' :: '-' :: y) ≠ .ok m z) := by
  cases h with
  | block h1 h2 h3 h4 h5 h6 => exact Or.inl (.block h1 h2 h3 h4 h5 h6)
  | leafKeyword h1 h2 h3 h4 h5 => exact Or.inl (.leafKeyword h1 h2 h3 h4 h5)
  | @leaf k ty nm tt nt T w r ds h1 h2 h3 h4 =>
    have hst : Starts (tt ++ (nt ++ (T ++ w))) := (TyTok.text h1 h2.ne).starts ((StrTok.text h2).starts.append _)
    cases h4 with
    | midSpace h =>
      by_cases hw : w = []
      · subst hw
        rcases entries_last h3 with ⟨rfl, rfl⟩ | ⟨as, e, A, u, E, rfl, rfl, hA, hu, hE⟩
        · refine Or.inr (Or.inr ⟨hst, fun total m z => ?_⟩)
          have := baseNode_name (TyTok.text h1 h2.ne) h2 y total m z
          simpa using this
        · by_cases hk : EntryEnd true e E
          · have := Text.leafKeyword (r := '/' :: '-' :: y) h1 h2 hA hu hk
            exact Or.inl (by simpa using this)
          · refine Or.inr (Or.inr ⟨hst, fun total m z => ?_⟩)
            have := baseNode_touch h1 h2 hA hu hE hk y total m z
            simpa using this
      · exact Or.inr (Or.inl ⟨tt ++ (nt ++ T), w, by simp, hw, h⟩)
    | @midEntries r w S v h4 hne h5 h6 =>
      by_cases hv : v = []
      · subst hv
        by_cases hk : SdEnd true S
        · have := Text.leaf (r := '/' :: '-' :: y) h1 h2 h3 (.midKeyword h4 hne hk)
          exact Or.inl (by simpa using this)
        · refine Or.inr (Or.inr ⟨hst, fun total m z => ?_⟩)
          have := baseNode_bad (TyTok.text h1 h2.ne) (StrTok.text h2) (EntsTok.text h3) (badRest_slash h4 hne h5 hk y) total m z
          simpa using this
      · exact Or.inr (Or.inl ⟨tt ++ (nt ++ (T ++ (w ++ S))), v, by simp, hv, h6⟩)
    | midKeyword h4 hne h5 => exact Or.inl (.leaf h1 h2 h3 (.midKeyword h4 hne h5))
    | midBlocks h4 hne h5 h6 => exact Or.inl (.leaf h1 h2 h3 (.midBlocks h4 hne h5 h6))
    | midBoth h4 hne h5 h6 hne' h7 h8 => exact Or.inl (.leaf h1 h2 h3 (.midBoth h4 hne h5 h6 hne' h7 h8))

/-! ### A slashdashed block where none may stand -/

/-- A slashdashed block. -/
def BlockNext (r : Str) : Prop := ∃ l y, r = '/' :: '-' :: (l ++ '{' :: y) ∧ LSpace ['{'] l

omit [FloatIO] in
theorem BlockNext.slash {r : Str} (h : BlockNext r) : Slash r := by
  obtain ⟨l, y, rfl, _⟩ := h
  exact ⟨_, rfl⟩

omit [FloatIO] in
theorem Slash.terminator {r : Str} (h : Slash r) : nodeTerminator r = .back := by
  obtain ⟨q, rfl⟩ := h
  have f := slash_facts (c := '-') (by decide) q
  unfold nodeTerminator
  rw [alt_right (lit_cons_ne (by decide)), alt_right f.2]
  exact singleLineComment_back fun q' e => absurd (List.cons.inj (List.cons.inj e).2).1 (by decide)

/-- Where a node may begin, a slashdashed block is an error. -/
theorem BlockNext.leading {r : Str} (h : BlockNext r) (total : Nat) : leadingItems (baseNode total) r = .cut := by
  have hsl := h.slash
  obtain ⟨l, y, rfl, hl⟩ := h
  have hb : baseNode total ('{' :: y) = .cut := by
    rw [baseNode_unfold]
    rfl
  have h1 : slashdash ('/' :: '-' :: (l ++ '{' :: y)) = .ok () ('{' :: y) :=
    slashdash_eq (hl.swap (by simp) (by rintro _ ⟨⟩)) (solid_lit (c := '{') (by simp) y).lineSpace
  have h2 : (lineSpace <+> (do slashdash; void (baseNode total))) ('/' :: '-' :: (l ++ '{' :: y)) = .cut := by
    rw [alt_right hsl.lineSpace, bind_eq h1]
    unfold void
    exact bind_cut hb
  have h3 : rep0 (lineSpace <+> (do slashdash; void (baseNode total))) ('/' :: '-' :: (l ++ '{' :: y)) = .cut := by
    rw [rep0_unfold, h2]
  unfold leadingItems takeP
  rw [bind_eq (p := here) (a := '/' :: '-' :: (l ++ '{' :: y)) (r := '/' :: '-' :: (l ++ '{' :: y)) rfl]
  exact bind_cut h3

/-- A node that is only read up to a slashdashed block. -/
theorem blocked_before {X r : Str} (hr : BlockNext r) (h : ∀ total m z, baseNode total X = .ok m z → z = r) : BlockedItems X := by
  intro total p L0 hp a q ns q1 u q2 L' x h1 h2 h3 h4
  obtain ⟨l, q', n', h5, h6, _⟩ := nodeF_inv h1
  rw [hp] at h5
  injection h5 with _ e
  subst e
  have hq := h total _ _ h6
  subst hq
  have ht := hr.slash.terminator
  have h9 : ∀ {q1}, q1 = q → opt nodeTerminator q1 = .ok u q2 → ¬ DocEnd x := by
    rintro _ rfl h3
    rw [opt_none ht] at h3
    injection h3 with _ e
    subst e
    rw [hr.leading] at h4
    cases h4
  cases h2 with
  | nil h => exact h9 rfl h3
  | stop h _ hp' => rw [ht] at h; cases h
  | cons h _ hp' ht' => rw [ht] at h; cases h

/-- A node without children, in front of a slashdash. -/
theorem baseNode_before_slash {ty : Option Str} {tt nm nt T w r : Str} {ds : List (SEntry Value)} (h1 : TyText nt ty tt)
    (h2 : StrText nt nm) (h3 : EntriesText ds T) (h4 : Mid w r) (hr : Slash r) (total : Nat) :
    ∃ n, baseNode total (tt ++ (nt ++ (T ++ (w ++ r)))) = .ok n r := by
  obtain ⟨m1, m2⟩ := h4
  have f4 : ∀ q, r ≠ '{' :: q := by
    obtain ⟨q, rfl⟩ := hr
    rintro _ ⟨⟩
  obtain ⟨n, h, _⟩ := baseNode_parts (TyTok.text h1 h2.ne) (StrTok.text h2) (EntsTok.text h3) m1 total (ch := none)
    (opt_none (by rw [bind_eq (takeP_eq (m2 total))]; exact bind_back (bind_back (lit_back.mpr f4)))) rfl
    (takeP_eq (m2 total)) (takeP_nil (opt_none hr.terminator)) (WSp.nil _ hr.nodeSpace)
  exact ⟨n, h⟩

/-- Slashdashed entries and blocks behind the entries of a node, with no space behind them. -/
def Tight (w : Str) : Prop := w = [] ∨ (∃ u S, w = u ++ S ∧ NSpace S u ∧ u ≠ [] ∧ SdEntries S) ∨
  (∃ u C, w = u ++ C ∧ NSpace C u ∧ u ≠ [] ∧ Text .blocks [] C) ∨
  ∃ u S v C, w = u ++ (S ++ (v ++ C)) ∧ NSpace S u ∧ u ≠ [] ∧ SdEntries S ∧ NSpace C v ∧ v ≠ [] ∧ Text .blocks [] C

/-- What stands in front of a block that no space is in front of: with a slashdash there, the node is
not read, or only up to the slashdash. -/
theorem node_blocked {ty : Option Str} {tt nm nt T w r : Str} {ds : List (SEntry Value)} (h1 : TyText nt ty tt)
    (h2 : StrText nt nm) (h3 : EntriesText ds T) (hr : BlockNext r) (h4 : Tight w) :
    BlockedItems (tt ++ (nt ++ (T ++ (w ++ r)))) := by
  have hsl := hr.slash
  have hn := hsl.nodeSpace
  have done {X : Str} (h : ∀ total, ∃ n, baseNode total X = .ok n r) : BlockedItems X :=
    blocked_before hr fun total m z e => by
      obtain ⟨n, h⟩ := h total
      rw [h] at e
      injection e with _ e
      exact e.symm
  rcases h4 with rfl | ⟨u, S, rfl, hu, hne, hS⟩ | ⟨u, C, rfl, hu, hne, hC⟩ | ⟨u, S, v, C, rfl, hu, hne, hS, hv, hne', hC⟩
  · obtain ⟨y, rfl⟩ := hsl
    rcases entries_last h3 with ⟨rfl, rfl⟩ | ⟨as, e, A, u, E, rfl, rfl, hA, hu, hE⟩
    · exact blockedItems_first (baseNode_name (TyTok.text h1 h2.ne) h2 y)
    · by_cases hk : EntryEnd true e E
      · refine done fun total => ?_
        obtain ⟨n, h, _⟩ := baseNode_keyword (r := '/' :: '-' :: y) h1 h2 hA hu hk hn (takeP_nil (opt_none (Slash.terminator ⟨y, rfl⟩)))
          (by rintro _ ⟨⟩) total
        exact ⟨n, by simpa using h⟩
      · have := blockedItems_first (baseNode_touch h1 h2 hA hu hE hk y)
        simpa using this
  · by_cases hk : SdEnd true S
    · refine done (baseNode_before_slash h1 h2 h3 (Mid.keyword hu hne hk hn hsl.notEq) hsl)
    · obtain ⟨y, rfl⟩ := hsl
      have := blockedItems_first (baseNode_bad (TyTok.text h1 h2.ne) (StrTok.text h2) (EntsTok.text h3) (badRest_slash hu hne hS hk y))
      simpa using this
  · refine done (baseNode_before_slash h1 h2 h3 ?_ hsl)
    have := Mid.blocks hu hne hC.reads (.nil (r := r)) hn (fun h => absurd rfl h)
    simpa using this
  · refine done (baseNode_before_slash h1 h2 h3 ?_ hsl)
    have := Mid.both hu hne hS hv hne' hC.reads (.nil (r := r)) hn (fun h => absurd rfl h)
    simpa using this

omit [FloatIO] in
theorem nspace_not_slash {r v : Str} (h : NSpace r v) (y : Str) : v ≠ '/' :: '-' :: y := by
  rintro rfl
  exact (h.lspace).notSlash (by simp) (y ++ r) rfl

theorem blocks_next {C : Str} (h : Text .blocks [] C) (x : Str) : BlockNext (C ++ x) := by
  cases h with
  | blocksOne hb _ => exact ⟨_, _, by simp; rfl, hb⟩
  | blocksCons hb _ _ _ _ => exact ⟨_, _, by simp; rfl, hb⟩

/-- A slashdash behind a block belongs to a further block. -/
theorem tail_next {r v y : Str} (h : Text .tail r v) (e : v = '/' :: '-' :: y) (x : Str) : BlockNext (v ++ x) := by
  cases h with
  | tailSpace h => exact absurd e (nspace_not_slash h y)
  | @tailBlocks r w C v h1 h2 h3 =>
    by_cases hw : w = []
    · subst hw
      have := blocks_next h2 (v ++ x)
      simpa using this
    · have hn : NSpace (C ++ v) w := nspace_swap h1 (by cases h2 <;> simp) (by cases h2 <;> simp)
      exact absurd e (hn.lspace.notSlash hw _)

/-- What stands between the entries of a node and its block, with a slashdash in front of the
block. -/
theorem mid_slash_block {k : Bool} {w D v r : Str} {cs : List (SNode Value)} (h4 : Text (.mid false) ['{'] w)
    (h5 : ∀ x, Text (.nodes cs) ('}' :: x) D) (h6 : Text .tail r v) : ∃ p u, w = p ++ u ∧ (∀ x, NSpace ('{' :: x) u) ∧ Tight p ∧
      ∀ b, LSpace ['{'] b → u ≠ [] → Tight (p ++ (u ++ '/' :: '-' :: (b ++ ('{' :: (D ++ ['}']))))) ∧
        ((∀ y, v ≠ '/' :: '-' :: y) → Text (.mid k) r (p ++ (u ++ '/' :: '-' :: (b ++ ('{' :: (D ++ '}' :: v)))))) := by
  have hb0 (b : Str) (hb : LSpace ['{'] b) : Text .blocks [] ('/' :: '-' :: (b ++ ('{' :: (D ++ ['}'])))) := .blocksOne hb h5
  have hb1 (b : Str) (hb : LSpace ['{'] b) (hv : ∀ y, v ≠ '/' :: '-' :: y) : ∃ C v', '/' :: '-' :: (b ++ ('{' :: (D ++ '}' :: v))) = C ++ v' ∧
      Text .blocks [] C ∧ NSpace r v' ∧ ∃ y, C = '/' :: '-' :: y := by
    obtain ⟨C, v', e, hC, hv'⟩ := tail_blocks (hb0 b hb) h6 hv
    refine ⟨C, v', by rw [← e]; simp, hC, hv', ?_⟩
    cases hC <;> exact ⟨_, rfl⟩
  cases h4 with
  | midSpace h =>
    refine ⟨[], w, rfl, fun x => nspace_swap h (by simp) (by simp), Or.inl rfl, fun b hb hu => ⟨?_, fun hv => ?_⟩⟩
    · exact Or.inr (Or.inr (Or.inl ⟨w, _, rfl, nspace_swap h (by simp) (by simp), hu, hb0 b hb⟩))
    · obtain ⟨C, v', e, hC, hv', y, rfl⟩ := hb1 b hb hv
      have := Text.midBlocks (k := k) (nspace_swap h (by simp) (by simp)) hu hC hv'
      rw [e]; simpa using this
  | @midEntries r w S u hw hne hS hu' =>
    refine ⟨w ++ S, u, by simp, fun x => nspace_swap hu' (by simp) (by simp), Or.inr (Or.inl ⟨w, S, rfl, hw, hne, hS⟩),
      fun b hb hu => ⟨?_, fun hv => ?_⟩⟩
    · exact Or.inr (Or.inr (Or.inr ⟨w, S, u, _, by simp, hw, hne, hS, nspace_swap hu' (by simp) (by simp), hu, hb0 b hb⟩))
    · obtain ⟨C, v', e, hC, hv', y, rfl⟩ := hb1 b hb hv
      have := Text.midBoth (k := k) hw hne hS (nspace_swap hu' (by simp) (by simp)) hu hC hv'
      rw [e]; simpa using this
  | @midBlocks k' r w C1 u hw hne hC1 hu' =>
    obtain ⟨q, rfl⟩ : ∃ q, C1 = '/' :: '-' :: q := by cases hC1 <;> exact ⟨_, rfl⟩
    refine ⟨w ++ '/' :: '-' :: q, u, by simp, fun x => nspace_swap hu' (by simp) (by simp),
      Or.inr (Or.inr (Or.inl ⟨w, _, rfl, hw, hne, hC1⟩)), fun b hb hu => ⟨?_, fun hv => ?_⟩⟩
    · exact Or.inr (Or.inr (Or.inl ⟨w, _, by simp, nspace_swap hw (by simp) (by simp), hne,
        blocks_append hC1 rfl (nspace_swap hu' (by simp) (by simp)) hu (hb0 b hb)⟩))
    · obtain ⟨C, v', e, hC, hv', y, rfl⟩ := hb1 b hb hv
      have := Text.midBlocks (k := k) (nspace_swap hw (by simp) (by simp)) hne
        (blocks_append hC1 rfl (nspace_swap hu' (by simp) (by simp)) hu hC) hv'
      rw [e]; simpa using this
  | @midBoth k' r w S u1 C1 u hw hne hS hu1 hne1 hC1 hu' =>
    obtain ⟨q, rfl⟩ : ∃ q, C1 = '/' :: '-' :: q := by cases hC1 <;> exact ⟨_, rfl⟩
    refine ⟨w ++ (S ++ (u1 ++ '/' :: '-' :: q)), u, by simp, fun x => nspace_swap hu' (by simp) (by simp),
      Or.inr (Or.inr (Or.inr ⟨w, S, u1, _, rfl, hw, hne, hS, hu1, hne1, hC1⟩)), fun b hb hu => ⟨?_, fun hv => ?_⟩⟩
    · exact Or.inr (Or.inr (Or.inr ⟨w, S, u1, _, by simp, hw, hne, hS, nspace_swap hu1 (by simp) (by simp), hne1,
        blocks_append hC1 rfl (nspace_swap hu' (by simp) (by simp)) hu (hb0 b hb)⟩))
    · obtain ⟨C, v', e, hC, hv', y, rfl⟩ := hb1 b hb hv
      have := Text.midBoth (k := k) hw hne hS (nspace_swap hu1 (by simp) (by simp)) hne1
        (blocks_append hC1 rfl (nspace_swap hu' (by simp) (by simp)) hu hC) hv'
      rw [e]; simpa using this

/-- Slashdashing the children block of a node. -/
theorem node_slash_block {k : Bool} {ty : Option Str} {nm : Str} {es : List (SEntry Value)} {cs : List (SNode Value)}
    {r B : Str} (h : Text (.node k (.mk ty nm es (some cs))) r B) :
    ∃ p u D q, B = p ++ (u ++ ('{' :: (D ++ '}' :: q))) ∧ (∀ x, NSpace ('{' :: x) u) ∧ (∀ x, Text (.nodes cs) ('}' :: x) D) ∧
      Starts p ∧ ∀ b, LSpace ['{'] b →
        (u ≠ [] → ¬ BlockNext (q ++ r) →
          Text (.node k (.mk ty nm es none)) r (p ++ (u ++ '/' :: '-' :: (b ++ ('{' :: (D ++ '}' :: q)))))) ∧
        (u = [] ∨ BlockNext (q ++ r) → BlockedItems (p ++ (u ++ '/' :: '-' :: (b ++ ('{' :: (D ++ '}' :: (q ++ r))))))) := by
  cases h with
  | @block k ty nm tt nt T w D v r es cs h1 h2 h3 h4 h5 h6 =>
    obtain ⟨p, u, rfl, hu, ht, hm⟩ := mid_slash_block (k := k) (h4 []) h5 h6
    refine ⟨tt ++ (nt ++ (T ++ p)), u, D, v, by simp, hu, h5, ?_, fun b hb => ⟨fun hne hv => ?_, fun hv => ?_⟩⟩
    · exact (TyTok.text h1 h2.ne).starts ((StrTok.text h2).starts.append _)
    · have := Text.leaf (k := k) h1 h2 h3 ((hm b hb hne).2 fun y e => hv (tail_next h6 e r))
      simpa using this
    · by_cases hne : u = []
      · subst hne
        have := node_blocked h1 h2 h3 (r := '/' :: '-' :: (b ++ ('{' :: (D ++ '}' :: (v ++ r))))) ⟨b, _, rfl, hb⟩ ht
        simpa using this
      · have := node_blocked h1 h2 h3 (hv.resolve_left hne) (hm b hb hne).1
        simpa using this

end

end Kdl
