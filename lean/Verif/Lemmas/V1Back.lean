import Verif.Lemmas.V1Text
import Verif.Lemmas.Parser.Tok
/-
The texts of strings that are converted to v1, decided exactly.
-/

namespace Kdl
open Spec

theorem escapeSlash_cons {c : Char} (hc : c ≠ '/') (s : Str) : escapeSlash (c :: s) = c :: escapeSlash s := by
  rw [escapeSlash, if_neg hc]

theorem escapeSlash_plain {p : Str} (hp : ∀ c ∈ p, c ≠ '/') (s : Str) : escapeSlash (p ++ s) = p ++ escapeSlash s := by
  induction p with
  | nil => rfl
  | cons c p ih => rw [List.cons_append, escapeSlash_cons (hp c (by simp)), ih fun c hc => hp c (by simp [hc])]; rfl

theorem hex_noSlash {hx : Str} (h : ∀ x ∈ hx, IsDigit 16 x) : ∀ c ∈ hx, c ≠ '/' ∧ c ≠ '}' ∧ c ≠ '"' := by
  intro c hc
  have := isDigit_iff.2.1.mp (h c hc)
  refine ⟨?_, ?_, ?_⟩ <;> (rintro rfl; revert this; decide)

theorem blank_noSlash {w : Str} (h : ∀ c ∈ w, Blank c) : ∀ c ∈ w, c ≠ '/' ∧ c ≠ '\\' ∧ c ≠ '"' := by
  intro c hc
  have := h c hc
  refine ⟨?_, ?_, ?_⟩ <;> (rintro rfl; revert this; decide)

theorem escapes_v1 {e c : Char} (h : (e, c) ∈ escapes) (hs : e ≠ 's') : (e, c) ∈ v1Escapes := by
  simp only [escapes, List.mem_cons, Prod.mk.injEq, List.not_mem_nil, or_false] at h
  rcases h with ⟨rfl, rfl⟩ | ⟨rfl, rfl⟩ | ⟨rfl, rfl⟩ | ⟨rfl, rfl⟩ | ⟨rfl, rfl⟩ | ⟨rfl, rfl⟩ | ⟨rfl, rfl⟩ | ⟨rfl, rfl⟩ <;>
    first | exact absurd rfl hs | simp [v1Escapes]

theorem v1Escapes_unique {e c c' : Char} (h : (e, c) ∈ v1Escapes) (h' : (e, c') ∈ v1Escapes) : c = c' := by
  simp only [v1Escapes, List.mem_cons, Prod.mk.injEq, List.not_mem_nil, or_false] at h h'
  rcases h with ⟨rfl, rfl⟩ | ⟨rfl, rfl⟩ | ⟨rfl, rfl⟩ | ⟨rfl, rfl⟩ | ⟨rfl, rfl⟩ | ⟨rfl, rfl⟩ | ⟨rfl, rfl⟩ | ⟨rfl, rfl⟩ <;>
    (simp at h'; exact h'.symm)

theorem v1Escapes_u {c : Char} : ('u', c) ∉ v1Escapes := by simp [v1Escapes]

/-! ### Taking v1 texts apart -/

theorem V1Quoted.cons_inv {c : Char} {t w : Str} (hc : c ≠ '\\') (h : V1Quoted (c :: t) w) : c ≠ '"' ∧ ∃ w', w = c :: w' ∧ V1Quoted t w' := by
  generalize hx : c :: t = x at h
  cases h with
  | nil => cases hx
  | plain h1 h2 h =>
    obtain ⟨rfl, rfl⟩ := List.cons.inj hx
    exact ⟨h2, _, rfl, h⟩
  | escape => exact absurd (List.cons.inj hx).1 hc
  | unicode => exact absurd (List.cons.inj hx).1 hc

theorem V1Quoted.escape_inv {e : Char} {t w : Str} (he : e ≠ 'u') (h : V1Quoted ('\\' :: e :: t) w) :
    ∃ c w', (e, c) ∈ v1Escapes ∧ w = c :: w' ∧ V1Quoted t w' := by
  generalize hx : '\\' :: e :: t = x at h
  cases h with
  | nil => cases hx
  | plain h1 => exact absurd (List.cons.inj hx).1.symm h1
  | escape h1 h =>
    have := List.cons.inj (List.cons.inj hx).2
    obtain ⟨rfl, rfl⟩ := this
    exact ⟨_, _, h1, rfl, h⟩
  | unicode => exact absurd (List.cons.inj (List.cons.inj hx).2).1 he

theorem brace_split : ∀ {a b x y : Str}, (∀ c ∈ a, c ≠ '}') → (∀ c ∈ b, c ≠ '}') → a ++ '}' :: x = b ++ '}' :: y → a = b ∧ x = y
  | [], [], _, _, _, _, h => ⟨rfl, (List.cons.inj h).2⟩
  | [], c :: _, _, _, _, hb, h => absurd (List.cons.inj h).1.symm (hb c (by simp))
  | c :: _, [], _, _, ha, _, h => absurd (List.cons.inj h).1 (ha c (by simp))
  | c :: a, d :: b, _, _, ha, hb, h => by
    have h' := List.cons.inj h
    obtain ⟨e1, e2⟩ := brace_split (fun c hc => ha c (by simp [hc])) (fun c hc => hb c (by simp [hc])) h'.2
    exact ⟨by rw [h'.1, e1], e2⟩

theorem V1Quoted.unicode_inv {hx t w : Str} (h3 : ∀ x ∈ hx, IsDigit 16 x) (h : V1Quoted ('\\' :: 'u' :: '{' :: (hx ++ '}' :: t)) w) :
    ∃ c w', hexVal hx = c.toNat ∧ w = c :: w' ∧ V1Quoted t w' := by
  generalize hz : '\\' :: 'u' :: '{' :: (hx ++ '}' :: t) = x at h
  cases h with
  | nil => cases hz
  | plain h1 => exact absurd (List.cons.inj hz).1.symm h1
  | escape h1 h =>
    obtain ⟨rfl, _⟩ := List.cons.inj (List.cons.inj hz).2
    exact absurd h1 v1Escapes_u
  | unicode h1 h2 h3' h4 h =>
    obtain ⟨rfl, rfl⟩ := brace_split (fun c hc => (hex_noSlash h3 c hc).2.1) (fun c hc => (hex_noSlash h3' c hc).2.1)
      (List.cons.inj (List.cons.inj (List.cons.inj hz).2).2).2
    exact ⟨_, _, h4, rfl, h⟩

theorem blank_v1 {w t v : Str} (h1 : w ≠ []) (h2 : ∀ c ∈ w, Blank c) : ¬ V1Quoted ('\\' :: (w ++ t)) v := by
  intro h
  cases w with
  | nil => exact h1 rfl
  | cons c w =>
    have hc := h2 c (by simp)
    have hu : c ≠ 'u' := by rintro rfl; revert hc; decide
    obtain ⟨c', _, h, _⟩ := V1Quoted.escape_inv hu (by simpa using h)
    simp only [v1Escapes, List.mem_cons, Prod.mk.injEq, List.not_mem_nil, or_false] at h
    rcases h with ⟨rfl, _⟩ | ⟨rfl, _⟩ | ⟨rfl, _⟩ | ⟨rfl, _⟩ | ⟨rfl, _⟩ | ⟨rfl, _⟩ | ⟨rfl, _⟩ | ⟨rfl, _⟩ <;>
      (revert hc; decide)

theorem V2Plain.noNewline {t v : Str} (h : V2Plain t v) : ∀ c ∈ t, ¬ Newline c := by
  induction h with
  | nil => simp
  | plain _ _ h3 _ _ ih => intro c hc; exact (List.mem_cons.mp hc).elim (fun e => e ▸ h3) (ih c)
  | escape h1 _ _ ih =>
    intro c hc
    rcases List.mem_cons.mp hc with rfl | hc
    · decide
    rcases List.mem_cons.mp hc with rfl | hc
    · simp only [escapes, List.mem_cons, Prod.mk.injEq, List.not_mem_nil, or_false] at h1
      rcases h1 with ⟨rfl, _⟩ | ⟨rfl, _⟩ | ⟨rfl, _⟩ | ⟨rfl, _⟩ | ⟨rfl, _⟩ | ⟨rfl, _⟩ | ⟨rfl, _⟩ | ⟨rfl, _⟩ <;> decide
    · exact ih c hc
  | @unicode hx t v _ _ _ h3 _ _ ih =>
    intro c hc
    simp only [List.mem_cons, List.mem_append] at hc
    rcases hc with rfl | rfl | rfl | hc | rfl | hc
    · decide
    · decide
    · decide
    · intro hn
      have h := isDigit_iff.2.1.mp (h3 c hc)
      unfold isHexDigit isDecDigit at h
      unfold Newline newlineCodes at hn
      simp only [Bool.or_eq_true, Bool.and_eq_true, decide_eq_true_eq, List.mem_cons, List.not_mem_nil, or_false] at *
      omega
    · decide
    · exact ih c hc

/-! ### A quoted string on one line -/

/-- The text with its slashes escaped. -/
abbrev reslash (s : Str) : Str := escapeSlash (unescapeSlash s)

theorem reslash_plain {p : Str} (hp : ∀ c ∈ p, c ≠ '/' ∧ c ≠ '\\') (s : Str) : reslash (p ++ s) = p ++ reslash s := by
  rw [reslash, unescapeSlash_plain (fun c hc => (hp c hc).2), escapeSlash_plain (fun c hc => (hp c hc).1)]

theorem reslash_quoted {t v : Str} (h : Quoted t v) :
    (∃ t', reslash (t ++ ['"']) = t' ++ ['"'] ∧ ∀ w, V1Quoted t' w ↔ w = v ∧ V2Plain t v) ∧
    (∀ s, t = '/' :: s → ∃ t' v', v = '/' :: v' ∧ reslash (s ++ ['"']) = t' ++ ['"'] ∧ ∀ w, V1Quoted t' w ↔ w = v' ∧ V2Plain s v') := by
  induction h with
  | nil =>
    refine ⟨⟨[], rfl, fun w => ⟨fun h => ?_, fun h => h.1 ▸ .nil⟩⟩, by rintro s ⟨⟩⟩
    cases h
    exact ⟨rfl, .nil⟩
  | @plain c t v h1 h2 h3 h4 _ ih =>
    obtain ⟨⟨t', e, hq⟩, _⟩ := ih
    have inv : V2Plain (c :: t) (c :: v) → V2Plain t v := by
      intro h
      generalize hx : c :: t = x at h
      generalize hy : c :: v = y at h
      cases h with
      | nil => cases hx
      | plain _ _ _ _ h =>
        obtain ⟨_, rfl⟩ := List.cons.inj hx
        obtain ⟨_, rfl⟩ := List.cons.inj hy
        exact h
      | escape => exact absurd (List.cons.inj hx).1 h1
      | unicode => exact absurd (List.cons.inj hx).1 h1
    refine ⟨?_, ?_⟩
    · by_cases hs : c = '/'
      · subst hs
        refine ⟨'\\' :: '/' :: t', ?_, fun w => ⟨fun h => ?_, ?_⟩⟩
        · rw [reslash, List.cons_append, unescapeSlash_cons h1, escapeSlash, if_pos rfl]
          rw [reslash] at e
          rw [e]
          rfl
        · obtain ⟨c, w', hc, rfl, hh⟩ := V1Quoted.escape_inv (by decide) h
          have : c = '/' := v1Escapes_unique hc (by simp [v1Escapes])
          obtain ⟨rfl, hp⟩ := (hq w').mp hh
          exact ⟨by rw [this], .plain h1 h2 h3 h4 hp⟩
        · rintro ⟨rfl, hp⟩
          exact .escape (by simp [v1Escapes]) ((hq v).mpr ⟨rfl, inv hp⟩)
      · refine ⟨c :: t', ?_, fun w => ⟨fun h => ?_, ?_⟩⟩
        · rw [reslash, List.cons_append, unescapeSlash_cons h1, escapeSlash_cons hs]
          rw [reslash] at e
          rw [e]
          rfl
        · obtain ⟨_, w', rfl, hh⟩ := V1Quoted.cons_inv h1 h
          obtain ⟨rfl, hp⟩ := (hq w').mp hh
          exact ⟨rfl, .plain h1 h2 h3 h4 hp⟩
        · rintro ⟨rfl, hp⟩
          exact .plain h1 h2 ((hq v).mpr ⟨rfl, inv hp⟩)
    · intro s es
      obtain ⟨rfl, rfl⟩ := List.cons.inj es
      exact ⟨t', v, rfl, e, hq⟩
  | @escape e c t v h1 h0 ih =>
    refine ⟨?_, by intro s es; exact absurd (List.cons.inj es).1 (by decide)⟩
    have hes : e ≠ '/' := by rintro rfl; simp [escapes] at h1
    have heu : e ≠ 'u' := by rintro rfl; simp [escapes] at h1
    -- the text and what it takes to be a v1 text
    have key : ∃ t' x, reslash (('\\' :: e :: t) ++ ['"']) = ('\\' :: e :: (x ++ t')) ++ ['"'] ∧
        ∀ w, V1Quoted (x ++ t') w ↔ w = v ∧ V2Plain t v := by
      by_cases hb : e = '\\'
      · subst hb
        by_cases hsl : ∃ s, t = '/' :: s
        · obtain ⟨s, rfl⟩ := hsl
          obtain ⟨t', v', rfl, e', hq⟩ := ih.2 s rfl
          refine ⟨t', ['/'], ?_, fun w => ?_⟩
          · rw [reslash, List.cons_append, List.cons_append, unescapeSlash_back (by decide), List.cons_append, unescapeSlash,
              if_pos ⟨rfl, rfl⟩, escapeSlash_cons (by decide), escapeSlash, if_pos rfl]
            rw [reslash] at e'
            rw [e']
            rfl
          · rw [List.cons_append, List.nil_append]
            constructor
            · intro h
              obtain ⟨_, w', rfl, hh⟩ := V1Quoted.cons_inv (by decide) h
              obtain ⟨rfl, hp⟩ := (hq w').mp hh
              exact ⟨rfl, .plain (by decide) (by decide) (by decide) (by decide) hp⟩
            · rintro ⟨rfl, hp⟩
              refine .plain (by decide) (by decide) ((hq v').mpr ⟨rfl, ?_⟩)
              generalize hx : '/' :: s = x at hp
              generalize hy : '/' :: v' = y at hp
              cases hp with
              | nil => cases hx
              | plain _ _ _ _ h =>
                obtain ⟨_, rfl⟩ := List.cons.inj hx
                obtain ⟨_, rfl⟩ := List.cons.inj hy
                exact h
              | escape => exact absurd (List.cons.inj hx).1 (by decide)
              | unicode => exact absurd (List.cons.inj hx).1 (by decide)
        · obtain ⟨⟨t', e', hq⟩, _⟩ := ih
          have : ∃ d q, t ++ ['"'] = d :: q ∧ d ≠ '/' := by
            cases t with
            | nil => exact ⟨_, _, rfl, by decide⟩
            | cons d q => exact ⟨d, q ++ ['"'], rfl, fun hd => hsl ⟨q, by rw [hd]⟩⟩
          obtain ⟨d, q, ed, hd⟩ := this
          refine ⟨t', [], ?_, hq⟩
          rw [reslash, List.cons_append, List.cons_append, unescapeSlash_back (by decide), ed, unescapeSlash_back hd, ← ed,
            escapeSlash_cons (by decide), escapeSlash_cons (by decide)]
          rw [reslash] at e'
          rw [e']
          rfl
      · obtain ⟨⟨t', e', hq⟩, _⟩ := ih
        refine ⟨t', [], ?_, hq⟩
        rw [reslash, List.cons_append, List.cons_append, unescapeSlash_back hes, unescapeSlash_cons hb,
          escapeSlash_cons (by decide), escapeSlash_cons hes]
        rw [reslash] at e'
        rw [e']
        rfl
    obtain ⟨t', x, e', hq⟩ := key
    refine ⟨_, e', fun w => ⟨fun h => ?_, ?_⟩⟩
    · obtain ⟨c', w', hc, rfl, hh⟩ := V1Quoted.escape_inv heu h
      obtain ⟨rfl, hp⟩ := (hq w').mp hh
      have hs : e ≠ 's' := by rintro rfl; simp [v1Escapes] at hc
      exact ⟨by rw [v1Escapes_unique hc (escapes_v1 h1 hs)], .escape h1 hs hp⟩
    · rintro ⟨rfl, hp⟩
      generalize hz : '\\' :: e :: t = z at hp
      generalize hy : c :: v = y at hp
      cases hp with
      | nil => cases hz
      | plain h => exact absurd (List.cons.inj hz).1.symm h
      | escape h1' hs hp =>
        obtain ⟨rfl, rfl⟩ := List.cons.inj (List.cons.inj hz).2
        obtain ⟨rfl, rfl⟩ := List.cons.inj hy
        exact .escape (escapes_v1 h1' hs) ((hq _).mpr ⟨rfl, hp⟩)
      | unicode => exact absurd (List.cons.inj (List.cons.inj hz).2).1 heu
  | @unicode hx t v c h1 h2 h3 h4 _ ih =>
    refine ⟨?_, by intro s es; exact absurd (List.cons.inj es).1 (by decide)⟩
    obtain ⟨⟨t', e, hq⟩, _⟩ := ih
    have e0 : ('\\' :: 'u' :: '{' :: (hx ++ '}' :: t)) ++ ['"'] = '\\' :: 'u' :: '{' :: (hx ++ '}' :: (t ++ ['"'])) := by simp
    refine ⟨'\\' :: 'u' :: '{' :: (hx ++ '}' :: t'), ?_, fun w => ⟨fun h => ?_, ?_⟩⟩
    · rw [e0, reslash, unescapeSlash_back (by decide), unescapeSlash_cons (by decide), unescapeSlash_cons (by decide),
        unescapeSlash_plain (hex_plain h3), unescapeSlash_cons (by decide), escapeSlash_cons (by decide), escapeSlash_cons (by decide),
        escapeSlash_cons (by decide), escapeSlash_plain (fun c hc => (hex_noSlash h3 c hc).1), escapeSlash_cons (by decide)]
      rw [reslash] at e
      rw [e]
      simp
    · obtain ⟨c', w', hc, rfl, hh⟩ := V1Quoted.unicode_inv h3 h
      obtain ⟨rfl, hp⟩ := (hq w').mp hh
      have : c' = c := Char.ext (UInt32.toNat_inj.mp (hc.symm.trans h4))
      exact ⟨by rw [this], .unicode h1 h2 h3 h4 hp⟩
    · rintro ⟨rfl, hp⟩
      generalize hz : '\\' :: 'u' :: '{' :: (hx ++ '}' :: t) = z at hp
      generalize hy : c :: v = y at hp
      cases hp with
      | nil => cases hz
      | plain h => exact absurd (List.cons.inj hz).1.symm h
      | escape h =>
        obtain ⟨rfl, _⟩ := List.cons.inj (List.cons.inj hz).2
        simp [escapes] at h
      | unicode _ _ h3' h4' hp =>
        obtain ⟨rfl, rfl⟩ := brace_split (fun c hc => (hex_noSlash h3 c hc).2.1) (fun c hc => (hex_noSlash h3' c hc).2.1)
          (List.cons.inj (List.cons.inj (List.cons.inj hz).2).2).2
        obtain ⟨rfl, rfl⟩ := List.cons.inj hy
        exact .unicode h1 h2 h3 h4 ((hq _).mpr ⟨rfl, hp⟩)
  | @space ws t v h1 h2 h3 _ ih =>
    refine ⟨?_, by intro s es; exact absurd (List.cons.inj es).1 (by decide)⟩
    obtain ⟨⟨t', e, hq⟩, _⟩ := ih
    have hw := blank_noSlash h2
    refine ⟨'\\' :: (ws ++ t'), ?_, fun w => ⟨fun h => absurd h (blank_v1 h1 h2), ?_⟩⟩
    · cases ws with
      | nil => exact absurd rfl h1
      | cons c ws =>
        have hc := hw c (by simp)
        have hw' : ∀ d ∈ ws, d ≠ '/' ∧ d ≠ '\\' := fun d hd => ⟨(hw d (by simp [hd])).1, (hw d (by simp [hd])).2.1⟩
        have := reslash_plain hw' (t ++ ['"'])
        rw [reslash] at this
        rw [reslash, List.cons_append, List.cons_append, List.cons_append, unescapeSlash_back hc.1, unescapeSlash_cons hc.2.1,
          escapeSlash_cons (by decide), escapeSlash_cons hc.1, List.append_assoc, this, e]
        simp
    · rintro ⟨rfl, hp⟩
      exfalso
      generalize hz : '\\' :: (ws ++ t) = z at hp
      cases hp with
      | nil => cases hz
      | plain h => exact absurd (List.cons.inj hz).1.symm h
      | escape h =>
        cases ws with
        | nil => exact h1 rfl
        | cons c ws =>
          obtain ⟨rfl, _⟩ := List.cons.inj (List.cons.inj hz).2
          have hc := h2 c (by simp)
          simp only [escapes, List.mem_cons, Prod.mk.injEq, List.not_mem_nil, or_false] at h
          rcases h with ⟨rfl, _⟩ | ⟨rfl, _⟩ | ⟨rfl, _⟩ | ⟨rfl, _⟩ | ⟨rfl, _⟩ | ⟨rfl, _⟩ | ⟨rfl, _⟩ | ⟨rfl, _⟩ <;>
            (revert hc; decide)
      | unicode =>
        cases ws with
        | nil => exact h1 rfl
        | cons c ws =>
          obtain ⟨rfl, _⟩ := List.cons.inj (List.cons.inj hz).2
          have hc := h2 'u' (by simp)
          revert hc
          decide

/-- A quoted v2 text that is also a v1 text has no line break. -/
theorem both_noNewline {t v w : Str} (h : Quoted t v) (h' : V1Quoted t w) : ∀ c ∈ t, ¬ Newline c := by
  induction h generalizing w with
  | nil => simp
  | plain h1 _ h3 _ _ ih =>
    obtain ⟨_, w', rfl, h''⟩ := V1Quoted.cons_inv h1 h'
    intro c hc
    exact (List.mem_cons.mp hc).elim (fun e => e ▸ h3) (ih h'' c)
  | @escape e _ t _ h1 _ ih =>
    have heu : e ≠ 'u' := by rintro rfl; simp [escapes] at h1
    obtain ⟨_, w', _, rfl, h''⟩ := V1Quoted.escape_inv heu h'
    intro c hc
    rcases List.mem_cons.mp hc with rfl | hc
    · decide
    rcases List.mem_cons.mp hc with rfl | hc
    · simp only [escapes, List.mem_cons, Prod.mk.injEq, List.not_mem_nil, or_false] at h1
      rcases h1 with ⟨rfl, _⟩ | ⟨rfl, _⟩ | ⟨rfl, _⟩ | ⟨rfl, _⟩ | ⟨rfl, _⟩ | ⟨rfl, _⟩ | ⟨rfl, _⟩ | ⟨rfl, _⟩ <;> decide
    · exact ih h'' c hc
  | @unicode hx t v _ h1 h2 h3 h4 _ ih =>
    obtain ⟨_, w', _, rfl, h''⟩ := V1Quoted.unicode_inv h3 h'
    intro c hc
    have := V2Plain.noNewline (.unicode h1 h2 h3 h4 .nil)
    simp only [List.mem_cons, List.mem_append] at hc
    rcases hc with rfl | rfl | rfl | hc | rfl | hc
    · decide
    · decide
    · decide
    · exact this c (by simp [hc])
    · decide
    · exact ih h'' c hc
  | space h1 h2 => exact absurd h' (blank_v1 h1 h2)

theorem quoted_three {t v : Str} (h : Quoted t v) : (∀ q, t ≠ '"' :: q) ∧ ¬ Contains (t ++ ['"']) ['"', '"', '"'] := by
  have one : ∀ x : Char, ¬ Contains [x] ['"', '"', '"'] := by
    rintro x ⟨a, b, e⟩
    have := congrArg List.length e
    simp at this
    omega
  induction h with
  | nil => exact ⟨by rintro q ⟨⟩, one _⟩
  | plain h1 h2 _ _ _ ih =>
    exact ⟨fun q e => h2 (List.cons.inj e).1, three_cons ih.2 fun e => absurd e h2⟩
  | @escape e c t v h1 _ ih =>
    refine ⟨by rintro q ⟨⟩, three_cons (three_cons ih.2 fun _ q e' => ?_) fun e => absurd e (by decide)⟩
    cases t with
    | nil => cases e'
    | cons a t => exact ih.1 t (by rw [(List.cons.inj e').1])
  | @unicode hx t v c h1 h2 h3 h4 _ ih =>
    refine ⟨by rintro q ⟨⟩, ?_⟩
    have : ('\\' :: 'u' :: '{' :: (hx ++ '}' :: t)) ++ ['"'] = ('\\' :: 'u' :: '{' :: (hx ++ ['}'])) ++ (t ++ ['"']) := by simp
    rw [this]
    refine three_plain ?_ ih.2
    intro c hc
    simp only [List.mem_cons, List.mem_append, List.not_mem_nil, or_false] at hc
    rcases hc with rfl | rfl | rfl | hc | rfl
    · decide
    · decide
    · decide
    · exact (hex_noSlash h3 c hc).2.2
    · decide
  | @space w t v h1 h2 _ _ ih =>
    refine ⟨by rintro q ⟨⟩, ?_⟩
    have : ('\\' :: (w ++ t)) ++ ['"'] = ('\\' :: w) ++ (t ++ ['"']) := by simp
    rw [this]
    refine three_plain ?_ ih.2
    intro c hc
    rcases List.mem_cons.mp hc with rfl | hc
    · decide
    · exact (blank_noSlash h2 c hc).2.2

/-! ### Strings over several lines -/

theorem count_replace {p b : Str} (h0 : p ≠ []) (hp : ∀ c ∈ p, c ≠ '"') (hb : ∀ c ∈ b, c ≠ '"') : ∀ (s : Str) (k : Nat), (∀ c ∈ s.take k, c ≠ '"') →
    (replaceAllAux p b k s).count '"' = s.count '"'
  | [], _, _ => by rw [replaceAllAux]
  | c :: s, k + 1, h => by
    have hc : c ≠ '"' := h c (by simp)
    rw [replaceAllAux, count_replace h0 hp hb s k fun c hc => h c (by simp [hc]), List.count_cons_of_ne hc]
  | c :: s, 0, _ => by
    rw [replaceAllAux]
    split
    · rename_i hm
      obtain ⟨r, hr⟩ := Option.isSome_iff_exists.mp hm
      have hr := stripPrefix?_eq.mp hr
      cases p with
      | nil => exact absurd rfl h0
      | cons a p =>
        have e := List.cons.inj hr
        rw [List.count_append, List.count_eq_zero.mpr fun h => hb _ h rfl, Nat.zero_add, count_replace h0 hp hb s _ fun d hd => ?_,
          List.count_cons_of_ne]
        · rw [e.1]
          exact hp a (by simp)
        · rw [e.2] at hd
          have hd : d ∈ (p ++ r).take p.length := hd
          rw [List.take_left] at hd
          exact hp d (by simp [hd])
    · rw [List.count_cons, List.count_cons, count_replace h0 hp hb s 0 (by simp)]

theorem replace_start {p b : Str} {a : Char} (hp : ∀ c q, p = c :: q → c ≠ a) (h0 : p ≠ []) (s : Str) :
    replaceAllAux p b 0 (a :: s) = a :: replaceAllAux p b 0 s := by
  rw [replaceAllAux, if_neg]
  intro hm
  obtain ⟨r, hr⟩ := Option.isSome_iff_exists.mp hm
  have hr := stripPrefix?_eq.mp hr
  cases p with
  | nil => exact h0 rfl
  | cons c p => exact hp c p rfl (List.cons.inj hr).1.symm

theorem newlineTexts_shape : ∀ nl ∈ newlineTexts, nl ≠ [] ∧ ∀ c ∈ nl, isNewlineChar c = true := by decide

/-- The characters in front of the closing quotation marks of `s`, if they are line breaks. -/
theorem multiLine_fold {nls : List Str} (hn : ∀ nl ∈ nls, nl ≠ [] ∧ ∀ c ∈ nl, isNewlineChar c = true) {pre : Str}
    (hpre : ∀ c ∈ pre, isNewlineChar c = true) (s : Str) :
    (nls.foldl (fun t nl => replaceAll (nl ++ pre) nl t) s).count '"' = s.count '"' ∧
    ∀ p x : Str, (∀ c ∈ p, isNewlineChar c = false) → s = p ++ x →
      ∃ y, nls.foldl (fun t nl => replaceAll (nl ++ pre) nl t) s = p ++ y := by
  induction nls generalizing s with
  | nil => exact ⟨rfl, fun p x _ e => ⟨x, e⟩⟩
  | cons nl nls ih =>
    have hnl := hn nl (by simp)
    have hq : ∀ c ∈ nl, c ≠ '"' := by
      rintro c hc rfl
      have := hnl.2 _ hc
      revert this
      decide
    have hq' : ∀ c ∈ nl ++ pre, c ≠ '"' := by
      rintro c hc rfl
      rcases List.mem_append.mp hc with hc | hc
      · exact hq _ hc rfl
      · have := hpre _ hc
        revert this
        decide
    have h0 : nl ++ pre ≠ [] := by simp [hnl.1]
    have ih := ih (fun m hm => hn m (by simp [hm])) (replaceAll (nl ++ pre) nl s)
    rw [List.foldl_cons]
    refine ⟨ih.1.trans (count_replace h0 hq' hq s 0 (by simp)), fun p x hp e => ?_⟩
    have : ∀ p : Str, (∀ c ∈ p, isNewlineChar c = false) → replaceAllAux (nl ++ pre) nl 0 (p ++ x) = p ++ replaceAllAux (nl ++ pre) nl 0 x := by
      intro p
      induction p with
      | nil => intro _; rfl
      | cons a p ihp =>
        intro hp
        rw [List.cons_append, replace_start _ h0, ihp fun c hc => hp c (by simp [hc])]
        · rfl
        · rintro c q e rfl
          cases nl with
          | nil => exact hnl.1 rfl
          | cons d nl =>
            have := hnl.2 d (by simp)
            rw [(List.cons.inj e).1, hp c (by simp)] at this
            cases this
    exact ih.2 p _ hp (by rw [replaceAll, e, this p hp])

theorem takeWhile_newline {x : Str} {c : Char} (h : c ∈ (x.takeWhile isNewlineChar).reverse) : isNewlineChar c = true := by
  induction x with
  | nil => simp at h
  | cons d x ih =>
    rw [List.takeWhile_cons] at h
    split at h
    · rename_i hd
      rw [List.reverse_cons, List.mem_append] at h
      rcases h with h | h
      · exact ih h
      · rw [List.mem_singleton.mp h]
        exact hd
    · simp at h

theorem multiLine_count (s : Str) : (v1MultiLine s).count '"' = s.count '"' := (multiLine_fold newlineTexts_shape (fun _ hc => takeWhile_newline hc) s).1

theorem multiLine_start {p x : Str} (hp : ∀ c ∈ p, isNewlineChar c = false) : ∃ y, v1MultiLine (p ++ x) = p ++ y := (multiLine_fold newlineTexts_shape (fun _ hc => takeWhile_newline hc) _).2 p x hp rfl

theorem V1Str.count {t w : Str} (h : V1Str ('r' :: t) w) : ('r' :: t).count '"' = w.count '"' + 2 := by
  generalize hx : 'r' :: t = x at h
  cases h with
  | quoted => exact absurd (List.cons.inj hx).1 (by decide)
  | @raw n =>
    have : (hashes n).count '"' = 0 := List.count_eq_zero.mpr fun h => hashes_noQuote n _ h rfl
    simp [List.count_append, List.count_cons, this]

theorem newlineSeq_count {nl t : Str} (h : NewlineSeq nl t) : nl.count '"' = 0 := by
  rcases h with rfl | ⟨c, rfl, h, _⟩
  · decide
  · have : c ≠ '"' := by rintro rfl; revert h; decide
    simp [this]

theorem space_count {sp : Str} (h : ∀ c ∈ sp, Space c) : sp.count '"' = 0 :=
  List.count_eq_zero.mpr fun hc => by
    have := h _ hc
    revert this
    decide

theorem joinLines_count : ∀ (c : Str) (ls : List Str), (joinLines (c :: ls)).count '"' = c.count '"' + (joinLines ls).count '"'
  | c, [] => by rw [joinLines_one]; rfl
  | c, d :: ls => by rw [joinLines_two]; simp [List.count_append]

theorem rawMulti_count {n : Nat} {pre t : Str} {ls : List Str} (hp : ∀ c ∈ pre, Space c) (h : RawMulti n pre t ls) :
    t.count '"' = (joinLines ls).count '"' := by
  induction h with
  | close => exact space_count hp
  | empty h1 h2 _ ih => rw [List.count_append, List.count_append, space_count h1, newlineSeq_count h2, ih, joinLines_count]; simp
  | line _ _ _ h3 _ ih =>
    rw [List.count_append, List.count_append, List.count_append, space_count hp, newlineSeq_count h3, ih, joinLines_count]
    omega

/-! ### The conversion -/

theorem newline_in {nl t : Str} (h : NewlineSeq nl t) : ∃ c ∈ nl, isNewlineChar c = true := by
  rcases h with rfl | ⟨c, rfl, h, _⟩
  · exact ⟨'\n', by simp, by decide⟩
  · exact ⟨c, by simp, isNewlineChar_iff.mpr h⟩

theorem identChar_white {c : Char} (h : IdentChar c) : isWhitespace c = false ∧ c ≠ '#' ∧ c ≠ '"' := by
  obtain ⟨h1, h2, _, h4⟩ := h
  refine ⟨?_, ?_, ?_⟩
  · rw [Bool.eq_false_iff]
    exact fun hw => (isWhitespace_blank hw).elim h1 h2
  · rintro rfl
    exact h4 (by decide)
  · rintro rfl
    exact h4 (by decide)

/-- The new text of a text without spaces around it. -/
theorem v1Repr_of {w t s : Str} (ht : trim t = t) (hs : s = if startsWithHash t then 'r' :: t else t) : v1StringRepr w t =
    if isPlainIdent w && !startsWithQuote s && !startsWithRHash s then '"' :: (w ++ ['"'])
    else if s.any isNewlineChar then
      if containsStr s ['"', '"', '"'] then v1MultiLine s else s
    else if !startsWithRHash s then escapeSlash (unescapeSlash s)
    else s := by
  unfold v1StringRepr
  simp only [ht]
  rw [← hs]

theorem v1Repr_quoted (w : Str) {t v : Str} (h : Quoted t v) : v1StringRepr w ('"' :: (t ++ ['"'])) =
    if t.any isNewlineChar then '"' :: (t ++ ['"']) else '"' :: reslash (t ++ ['"']) := by
  have htr : trim ('"' :: (t ++ ['"'])) = '"' :: (t ++ ['"']) :=
    trim_ends (q := t ++ ['"']) (p := '"' :: t) rfl (by decide) rfl (by decide)
  have hany : ('"' :: (t ++ ['"'])).any isNewlineChar = t.any isNewlineChar := by
    have : isNewlineChar '"' = false := by decide
    simp [List.any_append, this]
  have h3 : containsStr ('"' :: (t ++ ['"'])) ['"', '"', '"'] = false := by
    rw [Bool.eq_false_iff]
    intro hc
    refine three_cons (quoted_three h).2 (fun _ q e => ?_) (contains_iff.mp hc)
    cases t with
    | nil => cases e
    | cons a t => exact (quoted_three h).1 t (by rw [(List.cons.inj e).1])
  rw [v1Repr_of htr (s := '"' :: (t ++ ['"'])) rfl]
  have hq : startsWithQuote ('"' :: (t ++ ['"'])) = true := rfl
  have hr : startsWithRHash ('"' :: (t ++ ['"'])) = false := rfl
  rw [hq, hr, hany, h3]
  simp only [Bool.not_true, Bool.and_false, Bool.false_and, Bool.false_eq_true, if_false, Bool.not_false, if_true]
  rw [reslash, unescapeSlash_cons (by decide), escapeSlash_cons (by decide)]

theorem v1Repr_raw (w : Str) {n : Nat} {b : Str} : v1StringRepr w (hashes (n + 1) ++ '"' :: (b ++ '"' :: hashes (n + 1))) =
    if b.any isNewlineChar && containsStr ('r' :: (hashes (n + 1) ++ '"' :: (b ++ '"' :: hashes (n + 1)))) ['"', '"', '"'] then
      v1MultiLine ('r' :: (hashes (n + 1) ++ '"' :: (b ++ '"' :: hashes (n + 1))))
    else 'r' :: (hashes (n + 1) ++ '"' :: (b ++ '"' :: hashes (n + 1))) := by
  obtain ⟨p, d, e, hd⟩ := hashes_last (n := n) b
  have hwd : isWhitespace d = false := by rcases hd with rfl | rfl <;> decide
  have htr : trim (hashes (n + 1) ++ '"' :: (b ++ '"' :: hashes (n + 1))) = hashes (n + 1) ++ '"' :: (b ++ '"' :: hashes (n + 1)) :=
    trim_ends (c := '#') (q := hashes n ++ '"' :: (b ++ '"' :: hashes (n + 1))) rfl (by decide) e hwd
  rw [v1Repr_of htr (s := 'r' :: (hashes (n + 1) ++ '"' :: (b ++ '"' :: hashes (n + 1)))) rfl]
  have hr : startsWithRHash ('r' :: (hashes (n + 1) ++ '"' :: (b ++ '"' :: hashes (n + 1)))) = true := rfl
  have hh : (hashes (n + 1)).any isNewlineChar = false := by
    rw [Bool.eq_false_iff]
    intro h
    obtain ⟨c, hc, h⟩ := List.any_eq_true.mp h
    rw [List.eq_of_mem_replicate hc] at h
    revert h
    decide
  have hany : ('r' :: (hashes (n + 1) ++ '"' :: (b ++ '"' :: hashes (n + 1)))).any isNewlineChar = b.any isNewlineChar := by
    have h1 : isNewlineChar '"' = false := by decide
    have h2 : isNewlineChar 'r' = false := by decide
    simp only [List.any_cons, List.any_append, hh, h1, h2, Bool.false_or, Bool.or_false]
  rw [hr, hany]
  simp only [Bool.not_true, Bool.and_false, Bool.false_eq_true, if_false]
  cases b.any isNewlineChar <;> simp

theorem v1Repr_ready {t w : Str} (h : V2Ready t w) : V1Str (v1StringRepr w t) w := by
  cases h with
  | bare hb hr =>
    obtain ⟨hne, hid, _, hres⟩ := id hb
    have hp : isPlainIdent t = true := isPlainIdent_of_bare hb fun h => hr (hres h)
    cases hw : t with
    | nil => exact absurd hw hne
    | cons c q =>
      rw [hw] at hid hp
      have hc := identChar_white (hid c (by simp))
      have hl : c :: q = (c :: q).dropLast ++ [(c :: q).getLast (by simp)] := (List.dropLast_concat_getLast _).symm
      have htr : trim (c :: q) = c :: q := trim_ends rfl hc.1 hl (identChar_white (hid _ (List.getLast_mem _))).1
      have h1 : startsWithHash (c :: q) = false := by
        unfold startsWithHash
        split
        · rename_i e; exact absurd (List.cons.inj e).1 hc.2.1
        · rfl
      have h2 : startsWithQuote (c :: q) = false := by
        unfold startsWithQuote
        split
        · rename_i e; exact absurd (List.cons.inj e).1 hc.2.2
        · rfl
      have h3 : startsWithRHash (c :: q) = false := by
        unfold startsWithRHash
        split
        · rename_i e
          have : ('#' : Char) ∈ c :: q := by rw [e]; simp
          exact absurd rfl (identChar_white (hid _ this)).2.1
        · rfl
      rw [v1Repr_of htr (s := c :: q) (by rw [h1]; rfl), hp, h2, h3]
      simp only [Bool.not_false, Bool.and_true, if_true]
      refine .quoted ?_
      have : ∀ x : Str, (∀ a ∈ x, IdentChar a) → V1Quoted x x := by
        intro x
        induction x with
        | nil => exact fun _ => .nil
        | cons a x ih =>
          intro h
          refine .plain ?_ (identChar_white (h a (by simp))).2.2 (ih fun b hb => h b (by simp [hb]))
          rintro rfl
          exact (h '\\' (by simp)).2.2.2 (by decide)
      exact this _ hid
  | @quoted t _ h =>
    have hq : Quoted t w := by
      induction h with
      | nil => exact .nil
      | plain h1 h2 h3 h4 _ ih => exact .plain h1 h2 h3 h4 ih
      | escape h1 _ _ ih => exact .escape h1 ih
      | unicode h1 h2 h3 h4 _ ih => exact .unicode h1 h2 h3 h4 ih
    rw [v1Repr_quoted w hq, any_newline_false (V2Plain.noNewline h)]
    obtain ⟨t', e, hq'⟩ := (reslash_quoted hq).1
    simp only [Bool.false_eq_true, if_false]
    rw [e]
    exact .quoted ((hq' w).mpr ⟨rfl, h⟩)
  | raw h =>
    rw [v1Repr_raw, any_newline_false fun c hc => (h.1 c hc).1]
    simp only [Bool.false_and, Bool.false_eq_true, if_false]
    exact .raw h.2.1

theorem noV1_three {x w : Str} : ¬ V1Str ('"' :: '"' :: '"' :: x) w := by
  intro h
  generalize hy : '"' :: '"' :: '"' :: x = y at h
  cases h with
  | @quoted t _ h =>
    have e := (List.cons.inj hy).2
    cases t with
    | nil => cases e
    | cons a t => exact (v1Quoted_three h).1 t (by rw [(List.cons.inj e).1])
  | raw => exact absurd (List.cons.inj hy).1 (by decide)

/-- **The conversion of v2 strings to v1, exactly.** -/
theorem v1Repr_iff {t w : Str} (h : StrText t w) : V1Str (v1StringRepr w t) w ↔ V2Ready t w := by
  refine ⟨fun hv => ?_, v1Repr_ready⟩
  cases h with
  | bare h =>
    refine .bare h ?_
    rintro rfl
    have : v1StringRepr "-inf".toList "-inf".toList = "-inf".toList := by decide
    rw [this] at hv
    have no : ∀ {y v : Str}, V1Str y v → ∀ q, y ≠ '-' :: q := by
      intro y v h q hy
      cases h with
      | quoted => exact absurd (List.cons.inj hy).1 (by decide)
      | raw => exact absurd (List.cons.inj hy).1 (by decide)
    exact no hv _ rfl
  | @quoted t _ h =>
    rw [v1Repr_quoted w h] at hv
    have inv : ∀ {x : Str}, V1Str ('"' :: (x ++ ['"'])) w → V1Quoted x w := by
      intro x hv
      generalize hy : '"' :: (x ++ ['"']) = y at hv
      cases hv with
      | quoted hv =>
        have := (List.append_inj' (List.cons.inj hy).2 rfl).1
        rw [this]
        exact hv
      | raw => exact absurd (List.cons.inj hy).1 (by decide)
    split at hv
    · rename_i hn
      obtain ⟨c, hc, hn⟩ := any_newline.mp hn
      exact absurd hn (both_noNewline h (inv hv) c hc)
    · obtain ⟨t', e, hq⟩ := (reslash_quoted h).1
      rw [e] at hv
      exact .quoted ((hq w).mp (inv hv)).2
  | @multi nl pre t ls h0 h1 h =>
    exfalso
    have htr : trim ('"' :: '"' :: '"' :: (nl ++ (t ++ ['"', '"', '"']))) = '"' :: '"' :: '"' :: (nl ++ (t ++ ['"', '"', '"'])) :=
      trim_ends (c := '"') (d := '"') (p := '"' :: '"' :: '"' :: (nl ++ (t ++ ['"', '"']))) rfl (by decide) (by simp) (by decide)
    have hany : ('"' :: '"' :: '"' :: (nl ++ (t ++ ['"', '"', '"']))).any isNewlineChar = true := by
      rw [any_newline]
      obtain ⟨c, q, rfl, hc⟩ := newlineSeq_head h0
      exact ⟨c, by simp, hc⟩
    have hcon : containsStr ('"' :: '"' :: '"' :: (nl ++ (t ++ ['"', '"', '"']))) ['"', '"', '"'] = true :=
      containsStr_append [] ['"', '"', '"'] _
    have hq : startsWithQuote ('"' :: '"' :: '"' :: (nl ++ (t ++ ['"', '"', '"']))) = true := rfl
    rw [v1Repr_of htr (s := '"' :: '"' :: '"' :: (nl ++ (t ++ ['"', '"', '"']))) rfl, hq, hany, hcon] at hv
    simp only [Bool.not_true, Bool.and_false, Bool.false_and, Bool.false_eq_true, if_false, if_true] at hv
    obtain ⟨y, hy⟩ := multiLine_start (p := ['"', '"', '"']) (x := nl ++ (t ++ ['"', '"', '"'])) (by decide)
    rw [show '"' :: '"' :: '"' :: (nl ++ (t ++ ['"', '"', '"'])) = ['"', '"', '"'] ++ (nl ++ (t ++ ['"', '"', '"'])) from rfl, hy] at hv
    exact noV1_three hv
  | raw h => exact .raw h
  | @rawMulti n nl pre t ls h0 h1 h h2 =>
    exfalso
    have e0 : hashes (n + 1) ++ '"' :: '"' :: '"' :: (nl ++ (t ++ '"' :: '"' :: '"' :: hashes (n + 1))) =
        hashes (n + 1) ++ '"' :: (('"' :: '"' :: (nl ++ (t ++ ['"', '"']))) ++ '"' :: hashes (n + 1)) := by simp
    have hany : ('"' :: '"' :: (nl ++ (t ++ ['"', '"']))).any isNewlineChar = true := by
      rw [any_newline]
      obtain ⟨c, q, rfl, hc⟩ := newlineSeq_head h0
      exact ⟨c, by simp, hc⟩
    have hcon : containsStr ('r' :: (hashes (n + 1) ++ '"' :: (('"' :: '"' :: (nl ++ (t ++ ['"', '"']))) ++ '"' :: hashes (n + 1))))
        ['"', '"', '"'] = true := by
      refine contains_iff.mpr ⟨'r' :: hashes (n + 1), nl ++ (t ++ '"' :: '"' :: '"' :: hashes (n + 1)), ?_⟩
      simp
    rw [e0, v1Repr_raw, hany, hcon] at hv
    simp only [Bool.and_self, if_true] at hv
    obtain ⟨y, hy⟩ := multiLine_start (p := ['r']) (x := hashes (n + 1) ++ '"' :: (('"' :: '"' :: (nl ++ (t ++ ['"', '"']))) ++ '"' :: hashes (n + 1)))
      (by decide)
    have hy : v1MultiLine ('r' :: (hashes (n + 1) ++ '"' :: (('"' :: '"' :: (nl ++ (t ++ ['"', '"']))) ++ '"' :: hashes (n + 1)))) = 'r' :: y := hy
    have hcount := multiLine_count ('r' :: (hashes (n + 1) ++ '"' :: (('"' :: '"' :: (nl ++ (t ++ ['"', '"']))) ++ '"' :: hashes (n + 1))))
    rw [hy] at hv hcount
    have hv := V1Str.count hv
    rw [hcount] at hv
    have hh : (hashes (n + 1)).count '"' = 0 := List.count_eq_zero.mpr fun h => hashes_noQuote (n + 1) _ h rfl
    have hm := rawMulti_count h1 h
    have hnl := newlineSeq_count h0
    simp [List.count_append, List.count_cons, hh, hm, hnl] at hv
    omega

/-! ### Texts that look like v1 -/

theorem stripCr_contains {l : Str} {p : Str} (hp : '\r' ∉ p) : Contains (stripCr l) p ↔ Contains l p := by
  unfold stripCr
  split
  · rename_i t e
    have el : l = t.reverse ++ ['\r'] := by rw [← List.reverse_reverse l, e]; simp
    constructor
    · rintro ⟨a, b, h⟩
      exact ⟨a, b ++ ['\r'], by rw [el, h]; simp⟩
    · rintro ⟨a, b, h⟩
      rw [el] at h
      rcases List.eq_nil_or_concat b with rfl | ⟨b, x, rfl⟩
      · rcases List.eq_nil_or_concat p with rfl | ⟨p, x, rfl⟩
        · exact ⟨t.reverse, [], by simp⟩
        · rw [List.append_nil, List.concat_eq_append, ← List.append_assoc] at h
          have := (List.append_inj' h rfl).2
          exact absurd (by rw [(List.cons.inj this).1]; simp) hp
      · rw [List.concat_eq_append, ← List.append_assoc] at h
        exact ⟨a, b, (List.append_inj' h rfl).1⟩
  · exact Iff.rfl

theorem split_first {c : Char} : ∀ {s : Str}, c ∈ s → ∃ l r, s = l ++ c :: r ∧ c ∉ l
  | d :: s, h => by
    by_cases e : d = c
    · exact ⟨[], s, by rw [e]; rfl, by simp⟩
    · obtain ⟨l, r, h1, h2⟩ := split_first ((List.mem_cons.mp h).resolve_left fun h => e h.symm)
      exact ⟨d :: l, r, by rw [h1]; rfl, by simp [h2, Ne.symm e]⟩

theorem detectV1_iff {s : Str} : detectV1 s = true ↔ LooksV1 s := by
  have first : (match lines s with | [] => false | l :: _ => containsStr l "kdl-version 1".toList) = true ↔ FirstLineV1 s := by
    by_cases hn : '\n' ∈ s
    · obtain ⟨l, r, rfl, hl⟩ : ∃ l r, s = l ++ '\n' :: r ∧ '\n' ∉ l := split_first hn
      rw [lines_line l r hl]
      simp only
      rw [contains_iff, stripCr_contains (by decide)]
      constructor
      · rintro ⟨a, b, h⟩
        refine ⟨a, b ++ '\n' :: r, by rw [h]; simp, fun ha => hl (by rw [h]; simp [ha])⟩
      · rintro ⟨a, b, h, ha⟩
        rcases List.append_eq_append_iff.mp h with ⟨x, hx, hy⟩ | ⟨x, hx, hy⟩
        · exfalso
          cases x with
          | nil =>
            have := congrArg List.head? hy
            revert this
            simp
          | cons c x =>
            have := (List.cons.inj hy).1
            exact ha (by rw [hx, ← this]; simp)
        · rcases List.append_eq_append_iff.mp hy with ⟨y, hy1, hy2⟩ | ⟨y, hy1, hy2⟩
          · exact ⟨a, y, by rw [hx, hy1]; simp⟩
          · cases y with
            | nil => exact ⟨a, [], by rw [hx, hy1]; simp⟩
            | cons c y =>
              exfalso
              have := (List.cons.inj hy2).1
              have hm : '\n' ∈ "kdl-version 1".toList := by rw [hy1, this]; simp
              revert hm
              decide
    · by_cases he : s = []
      · subst he
        constructor
        · intro h; cases h
        · rintro ⟨a, b, h, _⟩
          have := congrArg List.length h
          simp at this
      · rw [lines_last s hn he]
        simp only
        rw [contains_iff]
        constructor
        · rintro ⟨a, b, h⟩
          exact ⟨a, b, by rw [h]; simp, fun ha => hn (by rw [h]; simp [ha])⟩
        · rintro ⟨a, b, h, _⟩
          exact ⟨a, b, by rw [h]; simp⟩
  unfold detectV1 LooksV1
  rw [Bool.or_eq_true, Bool.or_eq_true, Bool.or_eq_true, Bool.or_eq_true, Bool.or_eq_true, Bool.or_eq_true]
  simp only [contains_iff, or_assoc]
  exact or_congr first Iff.rfl

/-! ### The data of documents converted to v1 -/

section
variable [V1Lib]

theorem semEntry_ensureV1 (e : Entry) : semEntry id e.ensureV1 = semEntry id e := by
  unfold Entry.ensureV1
  split <;> rfl

variable [LawfulV1Lib]

mutual
theorem semNode_ensureV1 : ∀ n : Node, semNode id n.ensureV1 = semNode id n
  | .mk ty name entries children format span => by
    simp only [Node.ensureV1, semNode, semOptDoc_ensureV1 children, List.map_map]
    congr 1
    · cases ty with
      | none => rfl
      | some t => exact congrArg some (LawfulV1Lib.identOfStr_value t.value)
    · exact LawfulV1Lib.identOfStr_value name.value
    · exact List.map_congr_left fun e _ => semEntry_ensureV1 e
theorem semOptDoc_ensureV1 : ∀ d : Option Document, semOptDoc id (ensureV1OptDoc d) = semOptDoc id d
  | none => rfl
  | some d => by simp only [ensureV1OptDoc, semOptDoc, semDoc_ensureV1 d]
theorem semDoc_ensureV1 : ∀ d : Document, semDoc id d.ensureV1 = semDoc id d
  | .mk ns f s => by simp only [Document.ensureV1, semDoc, semNodes_ensureV1 none ns]
theorem semNodes_ensureV1 : ∀ (p : Option Node) (ns : List Node), semNodes id (ensureV1Nodes p ns) = semNodes id ns
  | _, [] => rfl
  | _, [n] => by simp only [ensureV1Nodes, semNodes, semNode_setFormat, semNode_ensureV1 n]
  | _, n :: m :: ns => by
    have := semNodes_ensureV1 (some n) (m :: ns)
    rw [ensureV1Nodes]
    simp only [semNodes, semNode_ensureV1 n]
    rw [this]
    simp only [semNodes]
end

end

end Kdl
