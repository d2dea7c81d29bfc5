import Verif.Spec.Values
import Verif.Lemmas.Parser.Raw
import Verif.Lemmas.Parser.Tok
/-
The texts of values, exactly.
-/

namespace Kdl
open Spec

theorem Spec.Group.head {ds : Str} (h : Group ds) : ∃ c ds', ds = c :: ds' ∧ Digits isDecDigit c ds' := by
  obtain ⟨c, t, rfl, hc, ht, _⟩ := h
  refine ⟨c, t, rfl, isDigit_iff.1.mp hc, fun x hx => ?_⟩
  rcases ht x hx with rfl | h
  · simp [isGrp]
  · simp [isGrp, isDigit_iff.1.mp h]

theorem group_of_digits {c : Char} {ds : Str} (h : Digits isDecDigit c ds) (hb : (litVal 10 (c :: ds) : Int) ≤ i128Max) :
    Group (c :: ds) := by
  refine ⟨c, ds, rfl, isDigit_iff.1.mpr h.1, fun x hx => ?_, hb⟩
  have := h.2 x hx
  simp only [isGrp, Bool.or_eq_true, beq_iff_eq] at this
  rcases this with h | h
  · exact Or.inr (isDigit_iff.1.mpr h)
  · exact Or.inl h

theorem Spec.Group.read {ds r : Str} (h : Group ds)
    (hr : ∀ x q, r = x :: q → isGrp isDecDigit x = false) :
    ∃ x : I128, udecimal (ds ++ r) = .ok x r ∧ x.val = litVal 10 ds := by
  obtain ⟨c, ds', e, hd⟩ := h.head
  obtain ⟨_, _, _, _, _, hb⟩ := h
  subst e
  exact (reads_udecimal hd hr).1 hb

theorem Spec.Group.readSigned {sg ds r : Str} {k : Int} (hk : Sign sg k) (h : Group ds)
    (hr : ∀ x q, r = x :: q → isGrp isDecDigit x = false) :
    ∃ x : I128, decimal (sg ++ (ds ++ r)) = .ok x r := by
  obtain ⟨x, hx, hv⟩ := h.read hr
  obtain ⟨c, ds', rfl, hd⟩ := h.head
  have hf := dec_facts (hex_of_dec hd.1)
  obtain ⟨b, hsig, hb'⟩ := signum_sign hk (c := c) (q := ds' ++ r) hf.1 hf.2.1
  obtain ⟨y, hy, _⟩ := signedP_ok hsig hb' hk.cases hx hv
  exact ⟨y, hy⟩

theorem i128_bound (x : I128) (n : Nat) (h : x.val = n) : (n : Int) ≤ i128Max := by
  have := x.property
  rw [← h]
  exact this.2

theorem udecimal_group {s r : Str} {x : I128} (h : udecimal s = .ok x r) : ∃ ds, s = ds ++ r ∧ Group ds := by
  obtain ⟨c, ds, h1, h2, h3⟩ := udecimal_inv h
  exact ⟨c :: ds, h2, group_of_digits h1 (i128_bound x _ h3)⟩

theorem decimal_group {s r : Str} {x : I128} (h : decimal s = .ok x r) :
    ∃ sg k ds, Sign sg k ∧ s = sg ++ (ds ++ r) ∧ Group ds := by
  obtain ⟨sg, k, q, y, hs, rfl, hq, _⟩ := signedP_inv h
  obtain ⟨ds, rfl, hd⟩ := udecimal_group hq
  exact ⟨sg, k, ds, hs, rfl, hd⟩

theorem expSign {es : Str} {k : Int} (h : Sign es k) {ds r : Str} (hd : Group ds) :
    ∃ w, opt (satisfy fun c => c == '-' || c == '+') (es ++ (ds ++ r)) = .ok w (ds ++ r) := by
  cases h with
  | none =>
    refine ⟨none, opt_none (satisfy_back.mpr ?_)⟩
    obtain ⟨c, ds', rfl, hd'⟩ := hd.head
    rintro _ _ ⟨⟩
    have := dec_facts (hex_of_dec hd'.1)
    simp [this.1, this.2.1]
  | plus => exact ⟨some '+', opt_some (satisfy_eq (by decide))⟩
  | minus => exact ⟨some '-', opt_some (satisfy_eq (by decide))⟩

section
variable [FloatIO]

omit [FloatIO] in
theorem floatLit_before {t r : Str} (h : FloatLit t) (hrs : ∀ x q, r = x :: q → isGrp isDecDigit x = false)
    (hstop : ∀ x q, r = x :: q → x ≠ 'e' ∧ x ≠ 'E') : (floatExp <+> floatFrac) (t ++ r) = .ok () r := by
  obtain ⟨sg, k, ip, fp, ex, hsg, hip, hfp, hex, hne, rfl⟩ := h
  have e0 : (sg ++ (ip ++ (fp ++ ex))) ++ r = sg ++ (ip ++ (fp ++ (ex ++ r))) := by simp
  rw [e0]
  -- what follows each part is not a digit
  have g1 : ∀ x q, ex ++ r = x :: q → isGrp isDecDigit x = false := by
    rcases hex with rfl | ⟨e, es, k', ds, he, _, _, rfl⟩
    · exact hrs
    · rintro x q ⟨⟩
      rcases he with rfl | rfl <;> decide
  have g2 : ∀ x q, fp ++ (ex ++ r) = x :: q → isGrp isDecDigit x = false := by
    rcases hfp with rfl | ⟨ds, _, rfl⟩
    · exact g1
    · rintro x q ⟨⟩; decide
  obtain ⟨x, hx⟩ := hip.readSigned hsg g2
  rcases hex with rfl | ⟨e, es, k', ds, he, hes, hds, rfl⟩
  · -- no exponent, so a fraction
    rcases hfp with rfl | ⟨ds, hds, rfl⟩
    · simp at hne
    · obtain ⟨y, hy, _⟩ := hds.read (r := r) hrs
      have o : opt (do lit ['.']; cutErr udecimal : P I128) ('.' :: (ds ++ r)) = .ok (some y) r :=
        opt_some (by rw [bind_eq (lit_one _ _)]; exact cutErr_eq hy)
      have hb : floatExp (sg ++ (ip ++ ('.' :: ds ++ ([] ++ r)))) = .back := by
        unfold floatExp
        rw [bind_eq hx]
        simp only [List.nil_append, List.cons_append]
        rw [bind_eq o]
        apply bind_back
        apply satisfy_back.mpr
        intro c q e
        have := hstop c q e
        simp [this.1, this.2]
      rw [alt_right hb]
      unfold floatFrac
      rw [bind_eq hx]
      simp only [List.nil_append, List.cons_append]
      rw [bind_eq (lit_one _ _)]
      exact void_eq (cutErr_eq hy)
  · apply alt_left
    unfold floatExp
    rw [bind_eq hx]
    have o : ∃ y, opt (do lit ['.']; cutErr udecimal : P I128) (fp ++ (e :: (es ++ ds) ++ r)) =
        .ok y (e :: (es ++ ds) ++ r) := by
      rcases hfp with rfl | ⟨fs, hfs, rfl⟩
      · refine ⟨none, opt_none (bind_back (lit_cons_ne ?_))⟩
        rcases he with rfl | rfl <;> decide
      · obtain ⟨y, hy, _⟩ := hfs.read (r := e :: (es ++ ds) ++ r) g1
        refine ⟨some y, opt_some ?_⟩
        rw [List.cons_append, bind_eq (lit_one _ _)]
        exact cutErr_eq hy
    obtain ⟨y, hy⟩ := o
    rw [bind_eq hy, List.cons_append, bind_eq (satisfy_eq (by rcases he with rfl | rfl <;> decide))]
    obtain ⟨z, hz, _⟩ := hds.read (r := r) hrs
    obtain ⟨w, hw⟩ := expSign hes (r := r) hds
    rw [List.append_assoc, bind_eq hw]
    exact void_eq (cutErr_eq hz)

omit [FloatIO] in
theorem floatLit_read {t r : Str} (h : FloatLit t) (hr : Stop r) : (floatExp <+> floatFrac) (t ++ r) = .ok () r := by
  refine floatLit_before h (hr.grp (fun _ => hex_of_dec) (f := isDecDigit)) fun x q e => ?_
  have := hr x q e
  refine ⟨?_, ?_⟩ <;> rintro rfl <;> exact absurd this (by decide)

theorem floatLit_forward {t r : Str} (h : FloatLit t) (hr : Ends r) :
    floatValue (t ++ r) = .ok (.float (FloatIO.parse (t.filter (· ≠ '_')))) r := by
  unfold floatValue
  rw [bind_eq (takeP_eq (floatLit_read h hr.stop)), bind_eq hr.check]
  have hd : dropUnderscores t = t.filter (· ≠ '_') := by
    unfold dropUnderscores
    congr 1
    funext c
    by_cases h : c = '_' <;> simp [h]
  rw [hd]
  rfl

omit [FloatIO] in
theorem floatLit_numberLike {t r : Str} (h : FloatLit t) : NumberLike (t ++ r) := by
  obtain ⟨sg, k, ip, fp, ex, hsg, ⟨c, ds', rfl, hc, _⟩, hfp, hex, hne, rfl⟩ := h
  exact ⟨sg, k, [], c, ds' ++ fp ++ ex ++ r, hsg, Or.inl rfl, hc, by simp⟩

theorem floatValue_inv {s r : Str} {v : Value} (h : floatValue s = .ok v r) :
    ∃ t, s = t ++ r ∧ FloatLit t ∧ v = .float (FloatIO.parse (t.filter (· ≠ '_'))) ∧ Ends r := by
  unfold floatValue at h
  rw [bind_ok] at h
  obtain ⟨t, q, h1, h⟩ := h
  rw [bind_ok] at h
  obtain ⟨_, q', h2, h3⟩ := h
  obtain ⟨hr, rfl⟩ := check_ok h2
  obtain ⟨hv, rfl⟩ := pure_ok.mp h3
  obtain ⟨rfl, _, h1⟩ := takeP_inv (by psolve) h1
  have hd : dropUnderscores t = t.filter (· ≠ '_') := by
    unfold dropUnderscores
    congr 1
    funext c
    by_cases h : c = '_' <;> simp [h]
  rw [hd] at hv
  refine ⟨t, rfl, ?_, hv, hr⟩
  rcases alt_ok.mp h1 with h1 | ⟨_, h1⟩
  · unfold floatExp at h1
    rw [bind_ok] at h1
    obtain ⟨x, s1, h1, h4⟩ := h1
    rw [bind_ok] at h4
    obtain ⟨y, s2, h4, h5⟩ := h4
    rw [bind_ok] at h5
    obtain ⟨e, s3, h5, h6⟩ := h5
    rw [bind_ok] at h6
    obtain ⟨z, s4, h6, h7⟩ := h6
    obtain ⟨w, h7⟩ := void_ok.mp h7
    rw [cutErr_ok] at h7
    obtain ⟨ds, rfl, hds⟩ := udecimal_group h7
    have hs : ∃ es k', Sign es k' ∧ s3 = es ++ (ds ++ r) := by
      rcases opt_ok.mp h6 with ⟨a, rfl, h6'⟩ | ⟨rfl, rfl, _⟩
      · obtain ⟨rfl, ha⟩ := satisfy_ok.mp h6'
        simp only [Bool.or_eq_true, beq_iff_eq] at ha
        rcases ha with rfl | rfl
        · exact ⟨_, _, .minus, rfl⟩
        · exact ⟨_, _, .plus, rfl⟩
      · exact ⟨_, _, .none, rfl⟩
    obtain ⟨es, k', hes, rfl⟩ := hs
    obtain ⟨rfl, he⟩ := satisfy_ok.mp h5
    simp only [Bool.or_eq_true, beq_iff_eq] at he
    have hf : ∃ fp, (fp = [] ∨ ∃ ds, Group ds ∧ fp = '.' :: ds) ∧ s1 = fp ++ (e :: (es ++ (ds ++ r))) := by
      rcases opt_ok.mp h4 with ⟨a, rfl, h4'⟩ | ⟨rfl, rfl, _⟩
      · rw [bind_ok] at h4'
        obtain ⟨_, s2, h4, h5⟩ := h4'
        rw [cutErr_ok] at h5
        obtain ⟨fs, rfl, hfs⟩ := udecimal_group h5
        have h4 := lit_ok.mp h4
        subst h4
        exact ⟨'.' :: fs, Or.inr ⟨fs, hfs, rfl⟩, by simp⟩
      · exact ⟨[], Or.inl rfl, rfl⟩
    obtain ⟨fp, hfp, rfl⟩ := hf
    obtain ⟨sg, k, ip, hsg, e0, hip⟩ := decimal_group h1
    refine ⟨sg, k, ip, fp, e :: (es ++ ds), hsg, hip, hfp, Or.inr ⟨e, es, k', ds, he, hes, hds, rfl⟩, Or.inr (by simp), ?_⟩
    apply List.append_cancel_right (bs := r)
    rw [e0]
    simp
  · unfold floatFrac at h1
    rw [bind_ok] at h1
    obtain ⟨x, s1, h1, h4⟩ := h1
    rw [bind_ok] at h4
    obtain ⟨_, s2, h4, h5⟩ := h4
    obtain ⟨w, h5⟩ := void_ok.mp h5
    rw [cutErr_ok] at h5
    obtain ⟨fs, rfl, hfs⟩ := udecimal_group h5
    have h4 := lit_ok.mp h4
    subst h4
    obtain ⟨sg, k, ip, hsg, e0, hip⟩ := decimal_group h1
    refine ⟨sg, k, ip, '.' :: fs, [], hsg, hip, Or.inr ⟨fs, hfs, rfl⟩, Or.inl rfl, Or.inl (by simp), ?_⟩
    apply List.append_cancel_right (bs := r)
    rw [e0]
    simp

/-- Numbers, exactly. -/
theorem number_iff {s r : Str} {v : Value} : number s = .ok v r ↔ ∃ t, s = t ++ r ∧ NumText t v ∧ Ends r := by
  unfold number
  constructor
  · intro h
    rcases alt_ok.mp h with h | ⟨_, h⟩
    · obtain ⟨t, rfl, h1, rfl, h2⟩ := floatValue_inv h
      exact ⟨t, rfl, .float h1, h2⟩
    · obtain ⟨i, t, rfl, rfl, h1, h2⟩ := integerValue_inv h
      refine ⟨t, rfl, .int h1 ?_, h2⟩
      apply Classical.byContradiction
      intro hn
      rcases (int_forward h1 h2).2 hn with h' | h' <;> rw [h'] at h <;> cases h
  · rintro ⟨t, rfl, h, hr⟩
    cases h with
    | @int i h hi =>
      obtain ⟨j, h1, h2⟩ := (int_forward h hr).1 hi
      obtain ⟨b, q, h3, h4⟩ := intLit_signum h hr.stop
      rw [alt_right (float_back h3 h4), h1]
      have : j = i := Subtype.ext h2
      rw [this]
    | float h => exact alt_left (floatLit_forward h hr)

theorem numText_numberLike {t r : Str} {v : Value} (h : NumText t v) : NumberLike (t ++ r) := by
  cases h with
  | int h => exact intLit_numberLike h
  | float h => exact floatLit_numberLike h

theorem keyword_eq {t : Str} {v : Value} (h : (t, v) ∈ keywords) (r : Str) : keyword (t ++ r) = .ok v r := by
  simp only [keywords, List.mem_cons, Prod.mk.injEq, List.not_mem_nil, or_false] at h
  rcases h with ⟨rfl, rfl⟩ | ⟨rfl, rfl⟩ | ⟨rfl, rfl⟩ | ⟨rfl, rfl⟩ | ⟨rfl, rfl⟩ | ⟨rfl, rfl⟩ <;> rfl

theorem keyword_inv {s r : Str} {v : Value} (h : keyword s = .ok v r) : ∃ t, s = t ++ r ∧ (t, v) ∈ keywords := by
  unfold keyword at h
  rw [bind_ok] at h
  obtain ⟨_, s1, h1, h⟩ := h
  rw [bind_ok] at h
  obtain ⟨_, s2, h2, h⟩ := h
  have h1 := lit_ok.mp h1
  have h2 := (notP_ok.mp h2).1
  subst h1 h2
  rw [cutErr_ok] at h
  have one : ∀ {w : Str} {x : Value}, (do lit w; return x : P Value) s2 = .ok v r → ('#' :: w, x) ∈ keywords →
      ∃ t, ['#'] ++ s2 = t ++ r ∧ (t, v) ∈ keywords := by
    intro w x h hm
    rw [bind_ok] at h
    obtain ⟨_, q, h3, h4⟩ := h
    obtain ⟨rfl, rfl⟩ := pure_ok.mp h4
    have h3 := lit_ok.mp h3
    exact ⟨'#' :: w, by rw [h3]; rfl, hm⟩
  rcases alt_ok.mp h with h | ⟨_, h⟩
  · exact one h (by decide)
  rcases alt_ok.mp h with h | ⟨_, h⟩
  · exact one h (by decide)
  rcases alt_ok.mp h with h | ⟨_, h⟩
  · exact one h (by decide)
  rcases alt_ok.mp h with h | ⟨_, h⟩
  · exact one h (by decide)
  rcases alt_ok.mp h with h | ⟨_, h⟩
  · exact one h (by decide)
  · exact one h (by decide)

/-- Values, exactly. -/
theorem valueBody_inv {s r : Str} {v : Value} (h : valueBody s = .ok v r) :
    ∃ t, s = t ++ r ∧ ValText t v ∧ ((∀ t', (t', v) ∉ keywords) → Ends r) := by
  unfold valueBody at h
  rcases alt_ok.mp h with h | ⟨_, h⟩
  · obtain ⟨t, rfl, h1⟩ := keyword_inv h
    exact ⟨t, rfl, .keyword h1, fun hn => absurd h1 (hn t)⟩
  · rcases alt_ok.mp h with h | ⟨_, h⟩
    · obtain ⟨t, rfl, h1, h2⟩ := number_iff.mp h
      exact ⟨t, rfl, .num h1, fun _ => h2⟩
    · rw [bind_ok] at h
      obtain ⟨x, q, h1, h2⟩ := h
      obtain ⟨rfl, rfl⟩ := pure_ok.mp h2
      obtain ⟨t, rfl, h1, h2⟩ := stringP_iff.mp h1
      exact ⟨t, rfl, .str h1, fun _ => h2⟩

theorem StrTok.text {t v : Str} (h : StrText t v) : StrTok v t := fun r hr => stringP_iff.mpr ⟨t, rfl, h, hr⟩

theorem keywords_head {t : Str} {v : Value} (h : (t, v) ∈ keywords) : ∃ c q, t = '#' :: c :: q ∧ c ≠ '#' ∧ c ≠ '"' := by
  simp only [keywords, List.mem_cons, Prod.mk.injEq, List.not_mem_nil, or_false] at h
  rcases h with ⟨rfl, rfl⟩ | ⟨rfl, rfl⟩ | ⟨rfl, rfl⟩ | ⟨rfl, rfl⟩ | ⟨rfl, rfl⟩ | ⟨rfl, rfl⟩ <;>
    exact ⟨_, _, rfl, by decide, by decide⟩

theorem ValTok.text {t : Str} {v : Value} (h : ValText t v) : ValTok v t := by
  cases h with
  | str h => exact StrTok.val (StrTok.text h)
  | num h =>
    have hn := numText_numberLike (r := []) h
    rw [List.append_nil] at hn
    obtain ⟨c, q, rfl, hc⟩ := numberLike_head hn
    have hf := numberLike_head_facts hc
    refine ⟨⟨c, q, rfl, Or.inl hf.2.2.2.2.2⟩, fun r hr => ⟨fun q' e => hf.2.2.1 (List.cons.inj e).1, ?_, Or.inl ?_⟩⟩
    · rw [valueBody_num (numText_numberLike h)]
      exact alt_left (number_iff.mpr ⟨_, rfl, h, hr⟩)
    · exact stringP_num (numText_numberLike h)
  | keyword h =>
    obtain ⟨c, q, rfl, h1, h2⟩ := keywords_head h
    refine ⟨⟨_, _, rfl, by simp [Start]⟩, fun r _ => ⟨by rintro _ ⟨⟩, ?_, Or.inl (stringP_hash h1 h2)⟩⟩
    exact alt_left (keyword_eq h r)

end

end Kdl
