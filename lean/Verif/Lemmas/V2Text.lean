import Verif.Spec.V2
import Verif.Model.Fmt
import Verif.Lemmas.Text
import Verif.Lemmas.Parser.Print
/-
`ensure_v2` and the texts of strings.
-/

namespace Kdl
open Spec

theorem isWhitespace_blank {c : Char} (h : isWhitespace c = true) : Blank c := by
  unfold isWhitespace at h
  simp only [Bool.or_eq_true, Bool.and_eq_true, decide_eq_true_eq, beq_iff_eq] at h
  unfold Blank Space Newline spaceCodes newlineCodes
  simp only [List.mem_cons, List.not_mem_nil, or_false]
  omega

theorem trim_ends {s : Str} {c d : Char} {q p : Str} (h1 : s = c :: q) (hc : isWhitespace c = false) (h2 : s = p ++ [d])
    (hd : isWhitespace d = false) : trim s = s := trim_of_trimmed (Or.inr ⟨⟨c, q, h1, hc⟩, ⟨d, p, h2, hd⟩⟩)

theorem isPlainIdent_of_bare {s : Str} (h : Bare s) (hr : s ∉ reserved) : isPlainIdent s = true := by
  obtain ⟨hne, hid, hn, _⟩ := h
  have ha : s.any isDisallowedIdentChar = false := by
    rw [List.any_eq_false]
    intro c hc
    simp [isDisallowedIdentChar_iff.mpr (hid c hc)]
  have hr' : reservedWords.contains s = false := by
    rw [Bool.eq_false_iff]
    intro h
    simp only [List.contains_eq_mem, decide_eq_true_eq] at h
    apply hr
    simp only [reservedWords, List.mem_cons, List.not_mem_nil, or_false] at h
    simp only [reserved, List.mem_cons, List.not_mem_nil, or_false]
    rcases h with h | h | h | h | h | h <;> simp [h]
  have h1 : startsWithDigit s = false := by
    rw [Bool.eq_false_iff]
    intro h
    cases s with
    | nil => cases h
    | cons c t => exact hn ⟨[], 1, [], c, t, .none, Or.inl rfl, isDigit_iff.1.mpr h, rfl⟩
  have h2 : looksNumeric s = false := by
    rw [Bool.eq_false_iff]
    intro h
    rcases s with _ | ⟨c, _ | ⟨d, t⟩⟩
    · cases h
    · cases h
    · simp only [looksNumeric, Bool.and_eq_true, Bool.or_eq_true, beq_iff_eq] at h
      obtain ⟨(rfl | rfl) | rfl, hd⟩ := h
      · exact hn ⟨[], 1, ['.'], d, t, .none, Or.inr rfl, isDigit_iff.1.mpr hd, rfl⟩
      · exact hn ⟨['-'], -1, [], d, t, .minus, Or.inl rfl, isDigit_iff.1.mpr hd, rfl⟩
      · exact hn ⟨['+'], 1, [], d, t, .plus, Or.inl rfl, isDigit_iff.1.mpr hd, rfl⟩
  unfold isPlainIdent
  rw [ha, hr', h1, h2]
  rfl

theorem stripPrefix_append (p b : Str) : stripPrefix? p (p ++ b) = some b := by
  induction p with
  | nil => cases b <;> rfl
  | cons c p ih => simp [stripPrefix?, ih]

theorem containsStr_append (a p b : Str) : containsStr (a ++ (p ++ b)) p = true := by
  induction a with
  | nil =>
    have h := stripPrefix_append p b
    cases e : p ++ b with
    | nil => rw [e] at h; simp [containsStr, h]
    | cons c t => rw [e] at h; simp [containsStr, h]
  | cons c a ih => simp [containsStr, ih]

theorem unescapeSlash_id : ∀ {s : Str}, ¬ Contains s ['\\', '/'] → unescapeSlash s = s
  | [], _ => rfl
  | [_], _ => rfl
  | c :: d :: s, h => by
    have h1 : ¬ (c = '\\' ∧ d = '/') := by
      rintro ⟨rfl, rfl⟩
      exact h ⟨[], s, rfl⟩
    have h2 : ¬ Contains (d :: s) ['\\', '/'] := by
      rintro ⟨a, b, e⟩
      exact h ⟨c :: a, b, by simp [e]⟩
    rw [unescapeSlash, if_neg h1, unescapeSlash_id h2]

theorem any_newline {s : Str} : s.any isNewlineChar = true ↔ ∃ c ∈ s, Newline c := by
  simp [List.any_eq_true, isNewlineChar_iff]

theorem newlineSeq_head {nl t : Str} (h : NewlineSeq nl t) : ∃ c q, nl = c :: q ∧ Newline c := by
  rcases h with rfl | ⟨c, rfl, h, _⟩
  · exact ⟨_, _, rfl, by decide⟩
  · exact ⟨c, [], rfl, h⟩

/-- What is between the quotes of a single line, as a line of a multi-line string. -/
theorem Quoted.mline {t v : Str} (h : Quoted t v) (hb : ∀ a c, t = a ++ [c] → ¬ Blank c) : MLine t v := by
  have tl : ∀ {p t : Str}, (∀ a c, p ++ t = a ++ [c] → ¬ Blank c) → ∀ a c, t = a ++ [c] → ¬ Blank c := by
    intro p t h a c e
    exact h (p ++ a) c (by rw [e]; simp)
  induction h with
  | nil => exact .nil
  | @plain c t v h1 h2 h3 h4 _ ih => exact .plain h1 h2 h3 h4 (ih (tl (p := [c]) hb))
  | @escape e c t v h1 _ ih => exact .escape h1 (ih (tl (p := ['\\', e]) hb))
  | @unicode hx t v c h1 h2 h3 h4 _ ih =>
    refine .unicode h1 h2 h3 h4 (ih (tl (p := '\\' :: 'u' :: '{' :: (hx ++ ['}'])) ?_))
    simpa using hb
  | @space w t v h1 h2 h3 _ ih =>
    refine .space ?_ h1 h2 h3 (ih (tl (p := '\\' :: w) (by simpa using hb)))
    rintro rfl
    have hl : w = w.dropLast ++ [w.getLast h1] := (List.dropLast_concat_getLast h1).symm
    exact hb ('\\' :: w.dropLast) (w.getLast h1) (by rw [List.append_nil]; conv => lhs; rw [hl]
                                                     simp) (h2 _ (List.getLast_mem h1))

/-- Multi-line strings are left alone. -/
theorem v2_multi {w nl t x : Str} (hp' : isPlainIdent w = false) (h0 : NewlineSeq nl x) :
    v2StringRepr w ('"' :: '"' :: '"' :: (nl ++ (t ++ ['"', '"', '"']))) = '"' :: '"' :: '"' :: (nl ++ (t ++ ['"', '"', '"'])) := by
  have htr : trim ('"' :: '"' :: '"' :: (nl ++ (t ++ ['"', '"', '"']))) = '"' :: '"' :: '"' :: (nl ++ (t ++ ['"', '"', '"'])) :=
    trim_ends (c := '"') (d := '"') (p := '"' :: '"' :: '"' :: (nl ++ (t ++ ['"', '"']))) rfl (by decide) (by simp) (by decide)
  have hany : ('"' :: '"' :: '"' :: (nl ++ (t ++ ['"', '"', '"']))).any isNewlineChar = true := by
    rw [any_newline]
    obtain ⟨c, q, rfl, hc⟩ := newlineSeq_head h0
    exact ⟨c, by simp, hc⟩
  have hcon : containsStr ('"' :: '"' :: '"' :: (nl ++ (t ++ ['"', '"', '"']))) ['"', '"', '"'] = true :=
    containsStr_append [] ['"', '"', '"'] _
  have hst : stripR ('"' :: '"' :: '"' :: (nl ++ (t ++ ['"', '"', '"']))) = '"' :: '"' :: '"' :: (nl ++ (t ++ ['"', '"', '"'])) := rfl
  unfold v2StringRepr
  simp only [htr, hst, hp', Bool.false_eq_true, if_false, hany, if_true, hcon]

/-- A text of a string, brought into v2 form. Doing so again changes nothing. -/
theorem v2_both {t w : Str} (h : StrText t w) (hk : V2Keeps t w) :
    StrText (v2StringRepr w t) w ∧ v2StringRepr w (v2StringRepr w t) = v2StringRepr w t := by
  obtain ⟨hne, hsp, hq⟩ := hk
  by_cases hp : isPlainIdent w = true
  · have : v2StringRepr w t = w := by simp [v2StringRepr, hp]
    rw [this]
    refine ⟨?_, by simp [v2StringRepr, hp]⟩
    rcases isPlainIdent_bare hp hne with hb | ⟨_, hb⟩
    · exact .bare hb
    · exact absurd hb hsp
  · have hp' : isPlainIdent w = false := by simpa using hp
    cases h with
    | bare h =>
      have : t ∈ reserved := Classical.byContradiction fun hr => hp (isPlainIdent_of_bare h hr)
      have := h.2.2.2 this
      subst this
      exact ⟨.bare h, by decide⟩
    | @quoted t _ h =>
      have htr : trim ('"' :: (t ++ ['"'])) = '"' :: (t ++ ['"']) :=
        trim_ends (q := t ++ ['"']) (p := '"' :: t) rfl (by decide) rfl (by decide)
      have hnq : ∀ q', t ≠ '"' :: q' := by
        rintro q' rfl
        cases h with
        | plain _ h2 => exact h2 rfl
      rcases hq t rfl hnq with ⟨hb, hr⟩ | ⟨h1, h2⟩
      · exact absurd (isPlainIdent_of_bare hb hr) hp
      · have hany : ('"' :: (t ++ ['"'])).any isNewlineChar = t.any isNewlineChar := by
          have : isNewlineChar '"' = false := by decide
          simp [List.any_append, this]
        have hst : stripR ('"' :: (t ++ ['"'])) = '"' :: (t ++ ['"']) := rfl
        have same : ∀ {x : Str}, x = '"' :: (t ++ ['"']) → v2StringRepr w ('"' :: (t ++ ['"'])) = x →
            StrText (v2StringRepr w ('"' :: (t ++ ['"']))) w ∧
            v2StringRepr w (v2StringRepr w ('"' :: (t ++ ['"']))) = v2StringRepr w ('"' :: (t ++ ['"'])) := by
          rintro x rfl e
          rw [e]
          exact ⟨.quoted h, e⟩
        have eq : v2StringRepr w ('"' :: (t ++ ['"'])) = if t.any isNewlineChar = true then
            if containsStr ('"' :: (t ++ ['"'])) ['"', '"', '"'] = true then '"' :: (t ++ ['"'])
            else (replaceFirstQuote ['"', '"', '"', '\n']
              (replaceFirstQuote ['"', '"', '"', '\n'] ('"' :: (t ++ ['"']))).reverse).reverse
            else unescapeSlash ('"' :: (t ++ ['"'])) := by
          have hsh : startsWithHash ('"' :: (t ++ ['"'])) = false := rfl
          unfold v2StringRepr
          simp only [htr, hst, hp', Bool.false_eq_true, if_false, hany, hsh, Bool.not_false, if_true]
        by_cases hn : t.any isNewlineChar = true
        · rw [if_pos hn] at eq
          split at eq
          · exact same rfl eq
          · have e : (replaceFirstQuote ['"', '"', '"', '\n']
                (replaceFirstQuote ['"', '"', '"', '\n'] ('"' :: (t ++ ['"']))).reverse).reverse =
                '"' :: '"' :: '"' :: (['\n'] ++ ((t ++ (['\n'] ++ [])) ++ ['"', '"', '"'])) := by
              simp [replaceFirstQuote]
            rw [e] at eq
            rw [eq]
            have hn' := any_newline.mp hn
            have hm := h1 hn'
            have hns : ∃ a ∈ t, ¬ Space a := by
              obtain ⟨c, hc, hn⟩ := hn'
              refine ⟨c, hc, fun hs => ?_⟩
              unfold Newline newlineCodes at hn
              unfold Space spaceCodes at hs
              simp only [List.mem_cons, List.not_mem_nil, or_false] at hn hs
              omega
            have hl : ∀ x, NewlineSeq ['\n'] x := fun x => Or.inr ⟨'\n', rfl, by decide, by intro h; cases h⟩
            have hM : Multi [] (t ++ (['\n'] ++ [])) [w] := by
              have := Multi.line (pre := []) hm hns (hl []) (.close .nil)
              simpa using this
            have := StrText.multi (hl _) (by simp) hM
            have ew : joinLines [w] = w := by simp [joinLines, List.intercalate]
            rw [ew] at this
            exact ⟨this, v2_multi hp' (hl [])⟩
        · rw [if_neg hn] at eq
          have hno : ∀ c ∈ t, ¬ Newline c := fun c hc hn' => hn (any_newline.mpr ⟨c, hc, hn'⟩)
          have hc : ¬ Contains ('"' :: (t ++ ['"'])) ['\\', '/'] := by
            rintro ⟨a, b, e⟩
            cases a with
            | nil => simp at e
            | cons x a =>
              obtain ⟨_, e⟩ := List.cons.inj e
              rcases List.eq_nil_or_concat b with rfl | ⟨b, y, rfl⟩
              · have := congrArg List.getLast? e
                simp at this
              · have e2 : t ++ ['"'] = (a ++ ['\\', '/'] ++ b) ++ [y] := by simpa using e
                exact h2 hno ⟨a, b, (List.append_inj' e2 rfl).1⟩
          rw [unescapeSlash_id hc] at eq
          exact same rfl eq
    | @multi nl pre t ls h0 h1 h =>
      have key := v2_multi (t := t) hp' h0
      rw [key]
      exact ⟨.multi h0 h1 h, key⟩
    | @raw n _ h =>
      have key : v2StringRepr w (hashes (n + 1) ++ '"' :: (w ++ '"' :: hashes (n + 1))) =
          hashes (n + 1) ++ '"' :: (w ++ '"' :: hashes (n + 1)) := by
        have hh : hashes (n + 1) = '#' :: hashes n := rfl
        have hh' : hashes (n + 1) = hashes n ++ ['#'] := by simp [hashes, List.replicate_succ']
        have htr : trim (hashes (n + 1) ++ '"' :: (w ++ '"' :: hashes (n + 1))) = hashes (n + 1) ++ '"' :: (w ++ '"' :: hashes (n + 1)) :=
          trim_ends (c := '#') (q := hashes n ++ '"' :: (w ++ '"' :: hashes (n + 1))) (d := '#')
            (p := hashes (n + 1) ++ '"' :: (w ++ '"' :: hashes n)) rfl (by decide) (by rw [hh']; simp) (by decide)
        have hany : (hashes (n + 1) ++ '"' :: (w ++ '"' :: hashes (n + 1))).any isNewlineChar = false := by
          rw [Bool.eq_false_iff]
          intro hc
          obtain ⟨c, hc, hn⟩ := any_newline.mp hc
          have hx : ∀ c, c ∈ hashes (n + 1) → c = '#' := fun c hc => (List.mem_replicate.mp hc).2
          simp only [List.mem_append, List.mem_cons] at hc
          rcases hc with hc | rfl | hc | rfl | hc
          · have := hx c hc; subst this; revert hn; decide
          · revert hn; decide
          · exact (h.1 c hc).1 hn
          · revert hn; decide
          · have := hx c hc; subst this; revert hn; decide
        unfold v2StringRepr
        simp only [htr, hp', Bool.false_eq_true, if_false]
        rw [show stripR (hashes (n + 1) ++ '"' :: (w ++ '"' :: hashes (n + 1))) = hashes (n + 1) ++ '"' :: (w ++ '"' :: hashes (n + 1)) from rfl,
          hany]
        rfl
      rw [key]
      exact ⟨.raw h, key⟩
    | @rawMulti n nl pre t ls h0 h1 h h2 =>
      have key : v2StringRepr (joinLines ls) (hashes (n + 1) ++ '"' :: '"' :: '"' :: (nl ++ (t ++ '"' :: '"' :: '"' :: hashes (n + 1)))) =
          hashes (n + 1) ++ '"' :: '"' :: '"' :: (nl ++ (t ++ '"' :: '"' :: '"' :: hashes (n + 1))) := by
        have hh' : hashes (n + 1) = hashes n ++ ['#'] := by simp [hashes, List.replicate_succ']
        have htr : trim (hashes (n + 1) ++ '"' :: '"' :: '"' :: (nl ++ (t ++ '"' :: '"' :: '"' :: hashes (n + 1)))) =
            hashes (n + 1) ++ '"' :: '"' :: '"' :: (nl ++ (t ++ '"' :: '"' :: '"' :: hashes (n + 1))) :=
          trim_ends (c := '#') (q := hashes n ++ '"' :: '"' :: '"' :: (nl ++ (t ++ '"' :: '"' :: '"' :: hashes (n + 1)))) (d := '#')
            (p := hashes (n + 1) ++ '"' :: '"' :: '"' :: (nl ++ (t ++ '"' :: '"' :: '"' :: hashes n))) rfl (by decide)
            (by rw [hh']; simp) (by decide)
        have hany : (hashes (n + 1) ++ '"' :: '"' :: '"' :: (nl ++ (t ++ '"' :: '"' :: '"' :: hashes (n + 1)))).any isNewlineChar = true := by
          rw [any_newline]
          obtain ⟨c, q, rfl, hc⟩ := newlineSeq_head h0
          exact ⟨c, by simp, hc⟩
        have hcon : containsStr (hashes (n + 1) ++ '"' :: '"' :: '"' :: (nl ++ (t ++ '"' :: '"' :: '"' :: hashes (n + 1)))) ['"', '"', '"'] = true :=
          containsStr_append (hashes (n + 1)) ['"', '"', '"'] _
        unfold v2StringRepr
        simp only [htr, hp', Bool.false_eq_true, if_false]
        rw [show stripR (hashes (n + 1) ++ '"' :: '"' :: '"' :: (nl ++ (t ++ '"' :: '"' :: '"' :: hashes (n + 1)))) =
          hashes (n + 1) ++ '"' :: '"' :: '"' :: (nl ++ (t ++ '"' :: '"' :: '"' :: hashes (n + 1))) from rfl, hany, hcon]
        rfl
      rw [key]
      exact ⟨.rawMulti h0 h1 h h2, key⟩

theorem v2_text {t w : Str} (h : StrText t w) (hk : V2Keeps t w) : StrText (v2StringRepr w t) w := (v2_both h hk).1

theorem v2_again {t w : Str} (h : StrText t w) (hk : V2Keeps t w) :
    v2StringRepr w (v2StringRepr w t) = v2StringRepr w t := (v2_both h hk).2

end Kdl
