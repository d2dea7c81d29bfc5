import Verif.Spec.V1
import Verif.Lemmas.V2Text
/-
The texts of v1 strings and `ensure_v2`.
-/

namespace Kdl
open Spec

theorem V1Safe.v1 {t v : Str} (h : V1Safe t v) : V1Quoted t v := by
  induction h with
  | nil => exact .nil
  | plain h1 h2 _ _ _ ih => exact .plain h1 h2 ih
  | escape h1 _ _ ih => exact .escape h1 ih
  | unicode h1 h2 h3 h4 _ ih => exact .unicode h1 h2 h3 h4 ih

theorem V1Quoted.append {t v t' v' : Str} (h : V1Quoted t v) (h' : V1Quoted t' v') : V1Quoted (t ++ t') (v ++ v') := by
  induction h with
  | nil => exact h'
  | plain h1 h2 _ ih => exact .plain h1 h2 ih
  | escape h1 _ ih => exact .escape h1 ih
  | @unicode hx t v c h1 h2 h3 h4 _ ih =>
    have := V1Quoted.unicode h1 h2 h3 h4 ih
    simpa using this

theorem V1Line.v1 {t v : Str} (h : V1Line t v) : V1Quoted t v := by
  induction h with
  | nil => exact .nil
  | plain h1 h2 _ _ _ ih => exact .plain h1 h2 ih
  | escape h1 _ _ ih => exact .escape h1 ih
  | unicode h1 h2 h3 h4 _ ih => exact .unicode h1 h2 h3 h4 ih

theorem joinLines_two (c c2 : Str) (cs : List Str) : joinLines (c :: c2 :: cs) = c ++ '\n' :: joinLines (c2 :: cs) := by
  simp [joinLines, List.intercalate]

theorem joinLines_one (c : Str) : joinLines [c] = c := by simp [joinLines, List.intercalate]

theorem V1Lines.v1 : ∀ {cs vs : List Str}, V1Lines cs vs → V1Quoted (joinLines cs) (joinLines vs)
  | _, _, .nil => .nil
  | _, _, .cons h .nil => by rw [joinLines_one, joinLines_one]; exact V1Line.v1 h
  | _, _, .cons h (.cons h2 ht) => by
    rw [joinLines_two, joinLines_two]
    exact V1Quoted.append (V1Line.v1 h) (.plain (by decide) (by decide) (V1Lines.v1 (.cons h2 ht)))

theorem rawQuoted {w : Str} (h : ∀ c ∈ w, c ≠ '\\' ∧ c ≠ '"' ∧ ¬ Newline c ∧ ¬ Disallowed c) : V1Line w w := by
  induction w with
  | nil => exact .nil
  | cons c w ih =>
    obtain ⟨h1, h2, h3, h4⟩ := h c (by simp)
    exact .plain h1 h2 h3 h4 (ih fun c hc => h c (by simp [hc]))

theorem rawV1Lines : ∀ {cs : List Str}, (∀ l ∈ cs, ∀ c ∈ l, c ≠ '\\' ∧ c ≠ '"' ∧ ¬ Newline c ∧ ¬ Disallowed c) → V1Lines cs cs
  | [], _ => .nil
  | l :: cs, h => .cons (rawQuoted (h l (by simp))) (rawV1Lines fun l' hl => h l' (by simp [hl]))

theorem mem_joinLines {cs : List Str} {c : Char} (h : c ∈ joinLines cs) : c = '\n' ∨ ∃ l ∈ cs, c ∈ l := by
  induction cs with
  | nil => simp [joinLines, List.intercalate] at h
  | cons l cs ih =>
    cases cs with
    | nil => rw [joinLines_one] at h; exact Or.inr ⟨l, by simp, h⟩
    | cons l2 cs =>
      rw [joinLines_two] at h
      rcases List.mem_append.mp h with h | h
      · exact Or.inr ⟨l, by simp, h⟩
      · rcases List.mem_cons.mp h with h | h
        · exact Or.inl h
        · rcases ih h with h | ⟨l', hl, h⟩
          · exact Or.inl h
          · exact Or.inr ⟨l', by simp [hl], h⟩

/-- The surviving texts are v1 strings. -/
theorem V1Good.v1 {t w : Str} (h : V1Good t w) : V1Str t w := by
  cases h with
  | bare h => exact h
  | quoted h => exact .quoted (V1Safe.v1 h)
  | lines h => exact .quoted (V1Lines.v1 h)
  | raw0 h =>
    refine V1Str.raw (n := 0) ?_
    rintro ⟨a, b, rfl⟩
    exact (h '"' (by simp [hashes])).2.1 rfl
  | @raw0Lines cs h =>
    refine V1Str.raw (n := 0) ?_
    rintro ⟨a, b, e⟩
    have : '"' ∈ joinLines cs := by rw [e]; simp [hashes]
    rcases mem_joinLines this with h' | ⟨l, hl, hc⟩
    · cases h'
    · exact (h l hl _ hc).2.1 rfl
  | raw h => exact .raw h.2.1
  | rawLines h hc => exact .raw hc

/-! ### One line -/

theorem unescapeSlash_cons {c : Char} (hc : c ≠ '\\') (s : Str) : unescapeSlash (c :: s) = c :: unescapeSlash s := by
  cases s with
  | nil => rfl
  | cons d s => rw [unescapeSlash, if_neg (fun h => hc h.1)]

theorem unescapeSlash_plain {p : Str} (hp : ∀ c ∈ p, c ≠ '\\') (s : Str) : unescapeSlash (p ++ s) = p ++ unescapeSlash s := by
  induction p with
  | nil => rfl
  | cons c p ih =>
    rw [List.cons_append, unescapeSlash_cons (hp c (by simp)), ih fun c hc => hp c (by simp [hc]), List.cons_append]

theorem unescapeSlash_back {d : Char} (hd : d ≠ '/') (s : Str) : unescapeSlash ('\\' :: d :: s) = '\\' :: unescapeSlash (d :: s) := by
  rw [unescapeSlash, if_neg (fun h => hd h.2)]

theorem hex_plain {hx : Str} (h : ∀ x ∈ hx, IsDigit 16 x) : ∀ c ∈ hx, c ≠ '\\' := by
  rintro c hc rfl
  have := isDigit_iff.2.1.mp (h _ hc)
  revert this
  decide

theorem v1Escapes_cases {e c : Char} (h : (e, c) ∈ v1Escapes) : (e = '/' ∧ c = '/') ∨ (e, c) ∈ escapes := by
  simp only [v1Escapes, List.mem_cons, Prod.mk.injEq, List.not_mem_nil, or_false] at h
  rcases h with ⟨rfl, rfl⟩ | ⟨rfl, rfl⟩ | ⟨rfl, rfl⟩ | ⟨rfl, rfl⟩ | ⟨rfl, rfl⟩ | ⟨rfl, rfl⟩ | ⟨rfl, rfl⟩ | ⟨rfl, rfl⟩ <;>
    first | exact Or.inl ⟨rfl, rfl⟩ | exact Or.inr (by decide)

/-- Taking the backslashes in front of slashes away. -/
theorem unescape_safe {t v : Str} (h : V1Safe t v) : ∃ t', unescapeSlash (t ++ ['"']) = t' ++ ['"'] ∧ Quoted t' v ∧
    ∀ c ∈ t', c = '/' ∨ c ∈ t := by
  induction h with
  | nil => exact ⟨[], rfl, .nil, by simp⟩
  | @plain c t v h1 h2 h3 h4 _ ih =>
    obtain ⟨t', e, hq, hm⟩ := ih
    refine ⟨c :: t', ?_, .plain h1 h2 h3 h4 hq, ?_⟩
    · rw [List.cons_append, unescapeSlash_cons h1, e, List.cons_append]
    · intro x hx
      rcases List.mem_cons.mp hx with rfl | hx
      · simp
      · rcases hm x hx with h | h <;> simp [h]
  | @escape e c t v h1 h2 _ ih =>
    obtain ⟨t', e', hq, hm⟩ := ih
    have mem : ∀ x ∈ t', x = '/' ∨ x ∈ '\\' :: e :: t := by
      intro x hx
      rcases hm x hx with h | h <;> simp [h]
    by_cases hs : e = '/'
    · subst hs
      rcases v1Escapes_cases h1 with ⟨_, rfl⟩ | h
      · refine ⟨'/' :: t', ?_, .plain (by decide) (by decide) (by decide) (by decide) hq, ?_⟩
        · rw [List.cons_append, List.cons_append, unescapeSlash, if_pos ⟨rfl, rfl⟩, e', List.cons_append]
        · intro x hx
          rcases List.mem_cons.mp hx with rfl | hx
          · simp
          · exact mem x hx
      · simp [escapes] at h
    · rcases v1Escapes_cases h1 with ⟨h, _⟩ | h
      · exact absurd h hs
      · refine ⟨'\\' :: e :: t', ?_, .escape h hq, ?_⟩
        · rw [List.cons_append, List.cons_append, unescapeSlash_back hs]
          by_cases hb : e = '\\'
          · subst hb
            have : ∃ d q, t ++ ['"'] = d :: q ∧ d ≠ '/' := by
              cases t with
              | nil => exact ⟨_, _, rfl, by decide⟩
              | cons d q => exact ⟨d, q ++ ['"'], rfl, fun hd => h2 rfl q (by rw [hd])⟩
            obtain ⟨d, q, ed, hd⟩ := this
            rw [ed, unescapeSlash_back hd, ← ed, e']
            rfl
          · rw [unescapeSlash_cons hb, e']
            rfl
        · intro x hx
          simp only [List.mem_cons] at hx ⊢
          rcases hx with rfl | rfl | hx
          · simp
          · simp
          · simpa using mem x hx
  | @unicode hx t v c h1 h2 h3 h4 _ ih =>
    obtain ⟨t', e, hq, hm⟩ := ih
    refine ⟨'\\' :: 'u' :: '{' :: (hx ++ '}' :: t'), ?_, .unicode h1 h2 h3 h4 hq, ?_⟩
    · have : ('\\' :: 'u' :: '{' :: (hx ++ '}' :: t)) ++ ['"'] = '\\' :: 'u' :: '{' :: (hx ++ '}' :: (t ++ ['"'])) := by simp
      rw [this, unescapeSlash_back (by decide), unescapeSlash_cons (by decide), unescapeSlash_cons (by decide),
        unescapeSlash_plain (hex_plain h3), unescapeSlash_cons (by decide), e]
      simp
    · intro x hx'
      simp only [List.mem_cons, List.mem_append] at hx' ⊢
      rcases hx' with h | h | h | h | h | h
      all_goals first | exact Or.inr (by simp [h]) | skip
      rcases hm x h with h | h
      · exact Or.inl h
      · exact Or.inr (by simp [h])

theorem V1Safe.noNewline {t v : Str} (h : V1Safe t v) : ∀ c ∈ t, ¬ Newline c := by
  induction h with
  | nil => simp
  | plain _ _ h3 _ _ ih =>
    intro x hx
    rcases List.mem_cons.mp hx with rfl | hx
    · exact h3
    · exact ih x hx
  | @escape e c t v h1 _ _ ih =>
    intro x hx
    simp only [List.mem_cons] at hx
    rcases hx with rfl | rfl | hx
    · decide
    · simp only [v1Escapes, List.mem_cons, Prod.mk.injEq, List.not_mem_nil, or_false] at h1
      rcases h1 with ⟨rfl, _⟩ | ⟨rfl, _⟩ | ⟨rfl, _⟩ | ⟨rfl, _⟩ | ⟨rfl, _⟩ | ⟨rfl, _⟩ | ⟨rfl, _⟩ | ⟨rfl, _⟩ <;> decide
    · exact ih x hx
  | @unicode hx t v c h1 h2 h3 h4 _ ih =>
    intro x hx'
    simp only [List.mem_cons, List.mem_append] at hx'
    rcases hx' with rfl | rfl | rfl | h | rfl | h
    · decide
    · decide
    · decide
    · intro hn
      have h := isDigit_iff.2.1.mp (h3 x h)
      unfold isHexDigit isDecDigit at h
      unfold Newline newlineCodes at hn
      simp only [Bool.or_eq_true, Bool.and_eq_true, decide_eq_true_eq, List.mem_cons, List.not_mem_nil, or_false] at *
      omega
    · decide
    · exact ih x h

theorem any_newline_false {s : Str} (h : ∀ c ∈ s, ¬ Newline c) : s.any isNewlineChar = false := by
  rw [Bool.eq_false_iff]
  intro hc
  obtain ⟨c, hc, hn⟩ := any_newline.mp hc
  exact h c hc hn

/-- A quoted string on one line. -/
theorem v2_safe {t w : Str} (h : V1Safe t w) (hp : isPlainIdent w = false) : StrText (v2StringRepr w ('"' :: (t ++ ['"']))) w := by
  have htr : trim ('"' :: (t ++ ['"'])) = '"' :: (t ++ ['"']) :=
    trim_ends (q := t ++ ['"']) (p := '"' :: t) rfl (by decide) rfl (by decide)
  have hst : stripR ('"' :: (t ++ ['"'])) = '"' :: (t ++ ['"']) := rfl
  have hsh : startsWithHash ('"' :: (t ++ ['"'])) = false := rfl
  have hany : ('"' :: (t ++ ['"'])).any isNewlineChar = false := by
    refine any_newline_false fun c hc => ?_
    simp only [List.mem_cons, List.mem_append, List.not_mem_nil, or_false] at hc
    rcases hc with rfl | hc | rfl
    · decide
    · exact V1Safe.noNewline h c hc
    · decide
  obtain ⟨t', e, hq, _⟩ := unescape_safe h
  unfold v2StringRepr
  simp only [htr, hst, hp, Bool.false_eq_true, if_false, hany, hsh, Bool.not_false, if_true]
  rw [unescapeSlash_cons (by decide), e]
  exact .quoted hq

/-! ### Several lines -/

theorem contains_iff {s p : Str} : containsStr s p = true ↔ Contains s p := by
  constructor
  · induction s with
    | nil =>
      intro h
      cases p with
      | nil => exact ⟨[], [], rfl⟩
      | cons c p => simp [containsStr, stripPrefix?] at h
    | cons c s ih =>
      intro h
      simp only [containsStr, Bool.or_eq_true] at h
      rcases h with h | h
      · obtain ⟨b, hb⟩ := Option.isSome_iff_exists.mp h
        have : ∀ {p x b : Str}, stripPrefix? p x = some b → x = p ++ b := by
          intro p
          induction p with
          | nil => intro x b h; simpa [stripPrefix?] using h
          | cons c p ih =>
            intro x b h
            cases x with
            | nil => simp [stripPrefix?] at h
            | cons d x =>
              rw [stripPrefix?] at h
              split at h
              · next e => rw [e, ih h]; rfl
              · cases h
        exact ⟨[], b, by simpa using this hb⟩
      · obtain ⟨a, b, e⟩ := ih h
        exact ⟨c :: a, b, by rw [e]; rfl⟩
  · rintro ⟨a, b, rfl⟩
    rw [List.append_assoc]
    exact containsStr_append a p b

theorem three_cons {c : Char} {x : Str} (h1 : ¬ Contains x ['"', '"', '"']) (h2 : c = '"' → ∀ q, x ≠ '"' :: '"' :: q) :
    ¬ Contains (c :: x) ['"', '"', '"'] := by
  rintro ⟨a, b, e⟩
  cases a with
  | nil =>
    simp only [List.nil_append, List.cons_append] at e
    exact h2 (List.cons.inj e).1 b (List.cons.inj e).2
  | cons y a => exact h1 ⟨a, b, (List.cons.inj e).2⟩

theorem three_plain {p x : Str} (hp : ∀ c ∈ p, c ≠ '"') (hx : ¬ Contains x ['"', '"', '"']) : ¬ Contains (p ++ x) ['"', '"', '"'] := by
  induction p with
  | nil => exact hx
  | cons c p ih => exact three_cons (ih fun c hc => hp c (by simp [hc])) (fun e => absurd e (hp c (by simp)))

theorem three_rev {x : Str} (h : ¬ Contains x ['"', '"', '"']) : ¬ Contains x.reverse ['"', '"', '"'] := by
  rintro ⟨a, b, e⟩
  refine h ⟨b.reverse, a.reverse, ?_⟩
  have := congrArg List.reverse e
  simpa using this

theorem three_after {p x : Str} (hp : ∀ c ∈ p, c ≠ '"') (hx : ¬ Contains x ['"', '"', '"']) : ¬ Contains (x ++ p) ['"', '"', '"'] := by
  have := three_rev (three_plain (p := p.reverse) (fun c hc => hp c (List.mem_reverse.mp hc)) (three_rev hx))
  simpa using this

/-- In a quoted v1 string, no quotation marks stand next to each other. -/
theorem v1Quoted_three {t v : Str} (h : V1Quoted t v) : (∀ q, t ≠ '"' :: q) ∧ ¬ Contains (t ++ ['"']) ['"', '"', '"'] := by
  have front : ∀ {t v : Str}, V1Quoted t v → ∀ q, t ≠ '"' :: q := by
    intro t v h q e
    cases h with
    | nil => cases e
    | plain _ h2 => exact h2 (List.cons.inj e).1
    | escape => cases e
    | unicode => cases e
  refine ⟨front h, ?_⟩
  induction h with
  | nil =>
    rintro ⟨a, b, e⟩
    have := congrArg List.length e
    simp at this
    omega
  | plain _ h2 _ ih => exact three_cons ih (fun e => absurd e h2)
  | @escape e c t v _ h ih =>
    refine three_cons (three_cons ih ?_) (fun e => by cases e)
    rintro rfl q e
    cases t with
    | nil => cases e
    | cons d t =>
      obtain ⟨rfl, _⟩ := List.cons.inj e
      exact front h t rfl
  | @unicode hx t v c _ _ h3 _ _ ih =>
    have hne : ∀ c ∈ '\\' :: 'u' :: '{' :: (hx ++ ['}']), c ≠ '"' := by
      rintro c hc rfl
      simp only [List.mem_cons, List.mem_append, List.not_mem_nil, or_false] at hc
      rcases hc with hc | hc | hc | hc | hc
      · cases hc
      · cases hc
      · cases hc
      · have := isDigit_iff.2.1.mp (h3 _ hc)
        revert this
        decide
      · cases hc
    have := three_plain hne ih
    simpa using this

theorem lf_seq (x : Str) : NewlineSeq ['\n'] x := Or.inr ⟨'\n', rfl, by decide, by intro h; cases h⟩

theorem V1Line.mline {t v : Str} (h : V1Line t v) : MLine t v := by
  induction h with
  | nil => exact .nil
  | plain h1 h2 h3 h4 _ ih => exact .plain h1 h2 h3 h4 ih
  | escape h1 h2 _ ih =>
    rcases v1Escapes_cases h1 with ⟨h, _⟩ | h
    · exact absurd h h2
    · exact .escape h ih
  | unicode h1 h2 h3 h4 _ ih => exact .unicode h1 h2 h3 h4 ih

theorem V1Line.nil_value {v : Str} (h : V1Line [] v) : v = [] := by cases h; rfl

theorem v1_multi : ∀ {cs vs : List Str}, V1Lines cs vs → cs ≠ [] → (∀ c ∈ cs, Visible c) → Multi [] (joinLines cs ++ ['\n']) vs
  | _, _, .nil, h, _ => absurd rfl h
  | _, _, .cons (c := c) (v := v) h .nil, _, hv => by
    rw [joinLines_one]
    rcases hv c (by simp) with rfl | hs
    · rw [V1Line.nil_value h]
      exact .empty (sp := []) (nl := ['\n']) (t := []) (by simp) (lf_seq _) (.close .nil)
    · have := Multi.line (pre := []) (V1Line.mline h) hs (lf_seq []) (.close .nil)
      simpa using this
  | _, _, .cons (c := c) (v := v) h (.cons (c := c2) h2 ht), _, hv => by
    have ih := v1_multi (.cons h2 ht) (by simp) fun c hc => hv c (List.mem_cons_of_mem _ hc)
    rw [joinLines_two]
    rcases hv c (by simp) with rfl | hs
    · rw [V1Line.nil_value h]
      exact .empty (sp := []) (nl := ['\n']) (by simp) (lf_seq _) ih
    · have := Multi.line (pre := []) (V1Line.mline h) hs (lf_seq _) ih
      simpa using this

theorem joinLines_newline : ∀ {cs : List Str}, 2 ≤ cs.length → '\n' ∈ joinLines cs
  | c :: c2 :: cs, _ => by rw [joinLines_two]; simp

theorem lines_notPlain {vs : List Str} (h : 2 ≤ vs.length) : isPlainIdent (joinLines vs) = false := by
  rw [Bool.eq_false_iff]
  intro hp
  have := isPlainIdent_ident hp '\n' (joinLines_newline h)
  revert this
  decide

theorem V1Lines.length : ∀ {cs vs : List Str}, V1Lines cs vs → cs.length = vs.length
  | _, _, .nil => rfl
  | _, _, .cons _ ht => by simp [V1Lines.length ht]

/-- A quoted string over several lines. -/
theorem v2_lines {cs vs : List Str} (h : V1Lines cs vs) (h2 : 2 ≤ cs.length) (hv : ∀ c ∈ cs, Visible c) :
    StrText (v2StringRepr (joinLines vs) ('"' :: (joinLines cs ++ ['"']))) (joinLines vs) := by
  have hp : isPlainIdent (joinLines vs) = false := lines_notPlain (V1Lines.length h ▸ h2)
  have htr : trim ('"' :: (joinLines cs ++ ['"'])) = '"' :: (joinLines cs ++ ['"']) :=
    trim_ends (q := joinLines cs ++ ['"']) (p := '"' :: joinLines cs) rfl (by decide) rfl (by decide)
  have hst : stripR ('"' :: (joinLines cs ++ ['"'])) = '"' :: (joinLines cs ++ ['"']) := rfl
  have hany : ('"' :: (joinLines cs ++ ['"'])).any isNewlineChar = true :=
    any_newline.mpr ⟨'\n', by simp [joinLines_newline h2], by decide⟩
  obtain ⟨hq1, hq2⟩ := v1Quoted_three (V1Lines.v1 h)
  have hcon : containsStr ('"' :: (joinLines cs ++ ['"'])) ['"', '"', '"'] = false := by
    rw [Bool.eq_false_iff]
    intro hc
    obtain ⟨a, b, e⟩ := contains_iff.mp hc
    cases a with
    | nil =>
      have e := (List.cons.inj e).2
      cases hj : joinLines cs with
      | nil => rw [hj] at e; simp at e
      | cons c q =>
        rw [hj] at e
        exact hq1 q (by rw [hj, (List.cons.inj e).1])
    | cons c a => exact hq2 ⟨a, b, (List.cons.inj e).2⟩
  have e : (replaceFirstQuote ['"', '"', '"', '\n']
      (replaceFirstQuote ['"', '"', '"', '\n'] ('"' :: (joinLines cs ++ ['"']))).reverse).reverse =
      '"' :: '"' :: '"' :: (['\n'] ++ ((joinLines cs ++ ['\n']) ++ ['"', '"', '"'])) := by
    simp [replaceFirstQuote]
  unfold v2StringRepr
  simp only [htr, hst, hp, Bool.false_eq_true, if_false, hany, if_true, hcon]
  rw [e]
  refine .multi (lf_seq _) (by simp) (v1_multi h ?_ hv)
  rintro rfl
  simp at h2

/-- The letter in front of a raw string. -/
theorem v2_r {w x : Str} {c : Char} {q : Str} (hx : x = c :: q) (hc : c = '"' ∨ c = '#') (he : ∃ p d, x = p ++ [d] ∧ (d = '"' ∨ d = '#')) :
    v2StringRepr w ('r' :: x) = v2StringRepr w x := by
  obtain ⟨p, d, e, hd⟩ := he
  have hwd : isWhitespace d = false := by rcases hd with rfl | rfl <;> decide
  have hwc : isWhitespace c = false := by rcases hc with rfl | rfl <;> decide
  have h1 : trim x = x := trim_ends hx hwc e hwd
  have h2 : trim ('r' :: x) = 'r' :: x := trim_ends (c := 'r') (q := x) rfl (by decide) (p := 'r' :: p) (by rw [e]; rfl) hwd
  have h3 : stripR x = x := by
    subst hx
    rcases hc with rfl | rfl <;> rfl
  unfold v2StringRepr
  rw [h1, h2, h3]
  rfl

theorem rawMulti_lines (n : Nat) : ∀ {cs : List Str}, cs ≠ [] → (∀ l ∈ cs, ∀ c ∈ l, ¬ Newline c ∧ ¬ Disallowed c) →
    (∀ l ∈ cs, ¬ Contains l ('"' :: '"' :: '"' :: hashes n)) → (∀ c ∈ cs, Visible c) → RawMulti n [] (joinLines cs ++ ['\n']) cs
  | [], h, _, _, _ => absurd rfl h
  | [c], _, h, hq, hv => by
    rw [joinLines_one]
    rcases hv c (by simp) with rfl | hs
    · exact .empty (sp := []) (nl := ['\n']) (t := []) (by simp) (lf_seq _) .close
    · have := RawMulti.line (n := n) (pre := []) (h c (by simp)) (hq c (by simp)) hs (lf_seq []) .close
      simpa using this
  | c :: c2 :: cs, _, h, hq, hv => by
    have ih := rawMulti_lines n (cs := c2 :: cs) (by simp) (fun l hl => h l (List.mem_cons_of_mem _ hl))
      (fun l hl => hq l (List.mem_cons_of_mem _ hl)) fun l hl => hv l (List.mem_cons_of_mem _ hl)
    rw [joinLines_two]
    rcases hv c (by simp) with rfl | hs
    · exact .empty (sp := []) (nl := ['\n']) (by simp) (lf_seq _) ih
    · have := RawMulti.line (n := n) (pre := []) (h c (by simp)) (hq c (by simp)) hs (lf_seq _) ih
      simpa using this

theorem contains_line {p : Str} : ∀ {cs : List Str} {l : Str}, l ∈ cs → Contains l p → Contains (joinLines cs) p
  | [c], l, h, hc => by
    rw [joinLines_one]
    rcases List.mem_singleton.mp h with rfl
    exact hc
  | c :: c2 :: cs, l, h, hc => by
    rw [joinLines_two]
    rcases List.mem_cons.mp h with rfl | h
    · obtain ⟨a, b, rfl⟩ := hc
      exact ⟨a, b ++ '\n' :: joinLines (c2 :: cs), by simp⟩
    · obtain ⟨a, b, e⟩ := contains_line h hc
      exact ⟨c ++ '\n' :: a, b, by rw [e]; simp⟩

theorem replaceFirstQuote_skip {y p x : Str} (h : ∀ c ∈ p, c ≠ '"') : replaceFirstQuote y (p ++ '"' :: x) = p ++ (y ++ x) := by
  induction p with
  | nil => simp [replaceFirstQuote]
  | cons c p ih =>
    rw [List.cons_append, replaceFirstQuote, if_neg (h c (by simp)), ih fun c hc => h c (by simp [hc])]
    rfl

theorem hashes_noQuote (n : Nat) : ∀ c ∈ hashes n, c ≠ '"' := by
  rintro c hc rfl
  have := (List.mem_replicate.mp hc).2
  cases this

/-- A raw string with hashes over several lines. -/
theorem v2_rawLines {n : Nat} {cs : List Str} (h : ∀ l ∈ cs, ∀ c ∈ l, ¬ Newline c ∧ ¬ Disallowed c)
    (hc : ¬ Contains (joinLines cs) ('"' :: hashes (n + 1))) (hq : ¬ Contains ('"' :: (joinLines cs ++ ['"'])) ['"', '"', '"'])
    (h2 : 2 ≤ cs.length) (hv : ∀ c ∈ cs, Visible c) :
    StrText (v2StringRepr (joinLines cs) (hashes (n + 1) ++ '"' :: (joinLines cs ++ '"' :: hashes (n + 1)))) (joinLines cs) := by
  have hp : isPlainIdent (joinLines cs) = false := lines_notPlain h2
  have hh : hashes (n + 1) = '#' :: hashes n := rfl
  have hh' : hashes (n + 1) = hashes n ++ ['#'] := by simp [hashes, List.replicate_succ']
  generalize hb : joinLines cs = b at *
  have htr : trim (hashes (n + 1) ++ '"' :: (b ++ '"' :: hashes (n + 1))) = hashes (n + 1) ++ '"' :: (b ++ '"' :: hashes (n + 1)) :=
    trim_ends (c := '#') (q := hashes n ++ '"' :: (b ++ '"' :: hashes (n + 1))) (d := '#')
      (p := hashes (n + 1) ++ '"' :: (b ++ '"' :: hashes n)) rfl (by decide) (by rw [hh']; simp) (by decide)
  have hst : stripR (hashes (n + 1) ++ '"' :: (b ++ '"' :: hashes (n + 1))) = hashes (n + 1) ++ '"' :: (b ++ '"' :: hashes (n + 1)) := rfl
  have hany : (hashes (n + 1) ++ '"' :: (b ++ '"' :: hashes (n + 1))).any isNewlineChar = true :=
    any_newline.mpr ⟨'\n', by rw [← hb]; simp [joinLines_newline h2], by decide⟩
  have hcon : containsStr (hashes (n + 1) ++ '"' :: (b ++ '"' :: hashes (n + 1))) ['"', '"', '"'] = false := by
    rw [Bool.eq_false_iff]
    intro hc'
    have := three_plain (hashes_noQuote (n + 1)) (three_after (hashes_noQuote (n + 1)) hq)
    exact this (by simpa using contains_iff.mp hc')
  have e : (replaceFirstQuote ['"', '"', '"', '\n']
      (replaceFirstQuote ['"', '"', '"', '\n'] (hashes (n + 1) ++ '"' :: (b ++ '"' :: hashes (n + 1)))).reverse).reverse =
      hashes (n + 1) ++ '"' :: '"' :: '"' :: (['\n'] ++ ((b ++ ['\n']) ++ '"' :: '"' :: '"' :: hashes (n + 1))) := by
    rw [replaceFirstQuote_skip (hashes_noQuote _)]
    have : (hashes (n + 1) ++ (['"', '"', '"', '\n'] ++ (b ++ '"' :: hashes (n + 1)))).reverse =
        hashes (n + 1) ++ '"' :: ((hashes (n + 1) ++ (['"', '"', '"', '\n'] ++ b)).reverse) := by
      simp [hashes]
    rw [this, replaceFirstQuote_skip (hashes_noQuote _)]
    simp [hashes]
  unfold v2StringRepr
  simp only [htr, hst, hp, Bool.false_eq_true, if_false, hany, if_true, hcon]
  rw [e, ← hb]
  refine .rawMulti (lf_seq _) (by simp) (rawMulti_lines _ ?_ h ?_ hv) ?_
  · rintro rfl
    simp at h2
  · intro l hl hcl
    apply hc
    rw [← hb]
    obtain ⟨x, y, e⟩ := contains_line hl hcl
    exact ⟨x ++ ['"', '"'], y, by rw [e]; simp⟩
  · intro e
    have := joinLines_newline h2
    rw [e] at this
    simp at this

theorem hashes_last {n : Nat} (b : Str) : ∃ p d, hashes (n + 1) ++ '"' :: (b ++ '"' :: hashes (n + 1)) = p ++ [d] ∧ (d = '"' ∨ d = '#') := by
  have hh' : hashes (n + 1) = hashes n ++ ['#'] := by simp [hashes, List.replicate_succ']
  refine ⟨hashes (n + 1) ++ '"' :: (b ++ '"' :: hashes n), '#', ?_, Or.inr rfl⟩
  conv => lhs; rw [hh']
  rw [hh']
  simp

/-- **The conversion of surviving v1 strings.** -/
theorem v1_text {t w : Str} (h : V1Good t w) : StrText (v2StringRepr w t) w := by
  have one : ∀ {t w : Str}, w ≠ [] → ¬ SignedPoint w → (isPlainIdent w = false → StrText (v2StringRepr w t) w) →
      StrText (v2StringRepr w t) w := by
    intro t w hne hs hk
    by_cases hp : isPlainIdent w = true
    · have : v2StringRepr w t = w := by simp [v2StringRepr, hp]
      rw [this]
      rcases isPlainIdent_bare hp hne with hb | ⟨_, hb⟩
      · exact .bare hb
      · exact absurd hb hs
    · exact hk (by simpa using hp)
  cases h with
  | bare h hb hr =>
    have : v2StringRepr w t = w := by simp [v2StringRepr, isPlainIdent_of_bare hb hr]
    rw [this]
    exact .bare hb
  | quoted h hne hs => exact one hne hs (v2_safe h)
  | lines h h2 hv => exact v2_lines h h2 hv
  | raw0 h hne hs =>
    refine one hne hs fun hp => ?_
    rw [v2_r (x := '"' :: (w ++ ['"'])) rfl (Or.inl rfl) ⟨'"' :: w, '"', rfl, Or.inl rfl⟩]
    have : ∀ {w : Str}, V1Line w w → (∀ c ∈ w, c ≠ '\\') → V1Safe w w := by
      intro w
      induction w with
      | nil => exact fun _ _ => .nil
      | cons c w ih =>
        intro h hb
        generalize hx : c :: w = x at h
        cases h with
        | nil => cases hx
        | plain h1 h2 h3 h4 h =>
          obtain ⟨rfl, rfl⟩ := List.cons.inj hx
          exact .plain h1 h2 h3 h4 (ih h fun c hc => hb c (by simp [hc]))
        | escape => exact absurd (List.cons.inj hx).1 (hb c (by simp))
        | unicode => exact absurd (List.cons.inj hx).1 (hb c (by simp))
    exact v2_safe (this (rawQuoted h) fun c hc => (h c hc).1) hp
  | @raw0Lines cs h h2 hv =>
    rw [v2_r (x := '"' :: (joinLines cs ++ ['"'])) rfl (Or.inl rfl) ⟨'"' :: joinLines cs, '"', rfl, Or.inl rfl⟩]
    exact v2_lines (rawV1Lines h) h2 hv
  | @raw n _ h hne hs =>
    refine one hne hs fun hp => ?_
    rw [v2_r (x := hashes (n + 1) ++ '"' :: (w ++ '"' :: hashes (n + 1))) (c := '#') (q := hashes n ++ '"' :: (w ++ '"' :: hashes (n + 1)))
      rfl (Or.inr rfl) (hashes_last _)]
    refine v2_text (.raw h) ⟨hne, hs, fun q e _ => ?_⟩
    cases e
  | @rawLines n cs h hc hq h2 hv =>
    rw [v2_r (x := hashes (n + 1) ++ '"' :: (joinLines cs ++ '"' :: hashes (n + 1))) (c := '#')
      (q := hashes n ++ '"' :: (joinLines cs ++ '"' :: hashes (n + 1))) rfl (Or.inr rfl) (hashes_last _)]
    exact v2_rawLines h hc hq h2 hv

end Kdl
