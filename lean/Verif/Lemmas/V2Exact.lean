import Verif.Lemmas.Parser.Multi
import Verif.Lemmas.V1Exact
/-
Which texts of strings survive `ensure_v2`: no others than the `V2Keeps` ones.
-/

namespace Kdl
open Spec

theorem escapes_notBlank {e c : Char} (h : (e, c) ∈ escapes) : ¬ Blank e := by
  simp only [escapes, List.mem_cons, Prod.mk.injEq, List.not_mem_nil, or_false] at h
  rcases h with ⟨rfl, _⟩ | ⟨rfl, _⟩ | ⟨rfl, _⟩ | ⟨rfl, _⟩ | ⟨rfl, _⟩ | ⟨rfl, _⟩ | ⟨rfl, _⟩ | ⟨rfl, _⟩ <;> decide

theorem escapes_unique {e c d : Char} (h1 : (e, c) ∈ escapes) (h2 : (e, d) ∈ escapes) : c = d := by
  simp only [escapes, List.mem_cons, Prod.mk.injEq, List.not_mem_nil, or_false] at h1
  rcases h1 with ⟨rfl, rfl⟩ | ⟨rfl, rfl⟩ | ⟨rfl, rfl⟩ | ⟨rfl, rfl⟩ | ⟨rfl, rfl⟩ | ⟨rfl, rfl⟩ | ⟨rfl, rfl⟩ | ⟨rfl, rfl⟩ <;>
    simp [escapes] at h2 <;> exact h2.symm

/-- Escaped white space. -/
theorem quoted_blank {a : Char} {t w : Str} (h : Quoted ('\\' :: a :: t) w) (ha : Blank a) :
    ∃ s t', t = s ++ t' ∧ (∀ c ∈ s, Blank c) ∧ NoBlank t' ∧ Quoted t' w := by
  generalize hx : '\\' :: a :: t = x at h
  cases h with
  | nil => cases hx
  | plain h1 => exact absurd (List.cons.inj hx).1.symm h1
  | escape h1 h =>
    simp only [List.cons.injEq, true_and] at hx
    exact absurd (hx.1 ▸ ha) (escapes_notBlank h1)
  | unicode =>
    simp only [List.cons.injEq, true_and] at hx
    exact absurd (hx.1 ▸ ha) (by decide)
  | @space s t' v h1 h2 h3 h =>
    cases s with
    | nil => exact absurd rfl h1
    | cons b s =>
      simp only [List.cons_append, List.cons.injEq, true_and] at hx
      obtain ⟨rfl, rfl⟩ := hx
      exact ⟨s, t', rfl, fun c hc => h2 c (by simp [hc]), h3, h⟩

/-- Where blank characters end. -/
theorem blank_split : ∀ {s s' t t' : Str}, (∀ c ∈ s, Blank c) → (∀ c ∈ s', Blank c) → NoBlank t → NoBlank t' → s ++ t = s' ++ t' →
    s = s' ∧ t = t'
  | [], [], _, _, _, _, _, _, h => ⟨rfl, h⟩
  | [], c :: s', _, _, _, hs', ht, _, h => by
    exfalso
    simp only [List.nil_append] at h
    subst h
    exact ht c _ rfl (hs' c (by simp))
  | c :: s, [], _, _, hs, _, _, ht', h => by
    exfalso
    simp only [List.nil_append] at h
    subst h
    exact ht' c _ rfl (hs c (by simp))
  | c :: s, d :: s', _, _, hs, hs', ht, ht', h => by
    obtain ⟨rfl, h2⟩ := List.cons.inj h
    obtain ⟨rfl, rfl⟩ := blank_split (fun x hx => hs x (by simp [hx])) (fun x hx => hs' x (by simp [hx])) ht ht' h2
    exact ⟨rfl, rfl⟩

/-- A quoted text has no line in front of its end. -/
theorem quoted_line {c x : Str} (hm : MLine c x) : ∀ {q w nl t : Str}, Quoted q w → NewlineSeq nl t → q ++ ['\n'] = c ++ (nl ++ t) →
    c = q ∧ x = w ∧ t = [] := by
  induction hm with
  | nil =>
    intro q w nl t hq hnl e
    obtain ⟨d, r, rfl, hd⟩ := newlineSeq_head hnl
    cases q with
    | nil =>
      cases hq
      have e := (List.cons.inj e).2
      exact ⟨rfl, rfl, (List.append_eq_nil_iff.mp e.symm).2⟩
    | cons a q =>
      obtain ⟨rfl, _⟩ := List.cons.inj e
      have ha : a ≠ '\\' := by
        rintro rfl
        exact absurd hd (by decide)
      exact absurd hd (quoted_cons hq ha).2.1
  | @plain a c x h1 h2 h3 h4 _ ih =>
    intro q w nl t hq hnl e
    cases q with
    | nil =>
      obtain ⟨rfl, _⟩ := List.cons.inj e
      exact absurd (by decide) h3
    | cons b q =>
      obtain ⟨rfl, e1⟩ := List.cons.inj e
      obtain ⟨_, _, _, w', rfl, hq'⟩ := quoted_cons hq h1
      obtain ⟨rfl, rfl, rfl⟩ := ih hq' hnl e1
      exact ⟨rfl, rfl, rfl⟩
  | quote h1 _ ih =>
    intro q w nl t hq hnl e
    cases q with
    | nil => cases (List.cons.inj e).1
    | cons b q =>
      obtain ⟨rfl, _⟩ := List.cons.inj e
      exact absurd rfl (quoted_cons hq (by decide)).1
  | @escape a d c x h1 _ ih =>
    intro q w nl t hq hnl e
    match q, hq, e with
    | [], _, e => cases (List.cons.inj e).1
    | [b], _, e =>
      exfalso
      obtain ⟨_, e⟩ := List.cons.inj e
      obtain ⟨rfl, _⟩ := List.cons.inj e
      exact escapes_notBlank h1 (by decide)
    | b :: b2 :: q, hq, e =>
      obtain ⟨rfl, e1⟩ := List.cons.inj e
      obtain ⟨rfl, e2⟩ := List.cons.inj e1
      rcases quoted_back hq (escapes_notBlank h1) with ⟨d', w', hd, rfl, hq'⟩ | ⟨rfl, _⟩
      · obtain rfl := escapes_unique h1 hd
        obtain ⟨rfl, rfl, rfl⟩ := ih hq' hnl e2
        exact ⟨rfl, rfl, rfl⟩
      · simp [escapes] at h1
  | @unicode hx c x d h1 h2 h3 h4 _ ih =>
    intro q w nl t hq hnl e
    match q, hq, e with
    | [], _, e => cases (List.cons.inj e).1
    | [b], _, e => cases (List.cons.inj (List.cons.inj e).2).1
    | b :: b2 :: q, hq, e =>
      obtain ⟨rfl, e1⟩ := List.cons.inj e
      obtain ⟨rfl, e2⟩ := List.cons.inj e1
      rcases quoted_back hq (by decide) with ⟨d', w', hd, _⟩ | ⟨_, hx', d', t', w', rfl, hh, hv, rfl, hq'⟩
      · simp [escapes] at hd
      · have e : hx' ++ '}' :: (t' ++ ['\n']) = hx ++ '}' :: (c ++ (nl ++ t)) := by simpa using e2
        obtain ⟨rfl, e3⟩ := split_unique (hex_noBrace hh) (hex_noBrace h3) e
        have : d = d' := Char.toNat_inj.mp (h4.symm.trans hv)
        subst this
        obtain ⟨rfl, rfl, rfl⟩ := ih hq' hnl e3
        exact ⟨rfl, rfl, rfl⟩
  | @space s c x h0 h1 h2 h3 _ ih =>
    intro q w nl t hq hnl e
    cases s with
    | nil => exact absurd rfl h1
    | cons a s =>
      have ha := h2 a (by simp)
      match q, hq, e with
      | [], _, e => cases (List.cons.inj e).1
      | [b], hq, e =>
        exfalso
        obtain ⟨rfl, _⟩ := List.cons.inj e
        generalize hx : ['\\'] = y at hq
        cases hq with
        | nil => cases hx
        | plain h1 => exact h1 (List.cons.inj hx).1.symm
        | escape => cases (List.cons.inj hx).2
        | unicode => cases (List.cons.inj hx).2
        | space h1 => exact h1 (List.append_eq_nil_iff.mp (List.cons.inj hx).2.symm).1
      | b :: b2 :: q, hq, e =>
        obtain ⟨rfl, e1⟩ := List.cons.inj e
        obtain ⟨rfl, e2⟩ := List.cons.inj e1
        obtain ⟨s', t', rfl, hs', ht', hq'⟩ := quoted_blank hq ha
        have hs : ∀ c ∈ s, Blank c := fun c hc => h2 c (by simp [hc])
        obtain ⟨c0, c', rfl⟩ : ∃ c0 c', c = c0 :: c' := by
          cases c with
          | nil => exact absurd rfl h0
          | cons c0 c' => exact ⟨_, _, rfl⟩
        have hc0 : ¬ Blank c0 := h3 c0 c' rfl
        have e : s' ++ (t' ++ ['\n']) = s ++ (c0 :: c' ++ (nl ++ t)) := by simpa using e2
        cases t' with
        | nil =>
          exfalso
          have : c0 ∈ s' ++ ([] ++ ['\n']) := by rw [e]; simp
          simp only [List.nil_append, List.mem_append, List.mem_singleton] at this
          rcases this with h | rfl
          · exact hc0 (hs' _ h)
          · exact hc0 (by decide)
        | cons y t' =>
          have n1 : NoBlank (y :: t' ++ ['\n']) := by
            intro z r ez
            obtain ⟨rfl, _⟩ := List.cons.inj ez
            exact ht' y t' rfl
          have n2 : NoBlank (c0 :: c' ++ (nl ++ t)) := by
            intro z r ez
            obtain ⟨rfl, _⟩ := List.cons.inj ez
            exact hc0
          obtain ⟨rfl, e3⟩ := blank_split hs' hs n1 n2 e
          obtain ⟨h1, rfl, rfl⟩ := ih hq' hnl e3
          rw [h1]
          exact ⟨rfl, rfl, rfl⟩

/-- In a quoted string, no three quotation marks stand next to each other. -/
theorem quoted_three {t v : Str} (h : Quoted t v) : (∀ q, t ≠ '"' :: q) ∧ ¬ Contains (t ++ ['"']) ['"', '"', '"'] := by
  have front : ∀ {t v : Str}, Quoted t v → ∀ q, t ≠ '"' :: q := by
    rintro t v h q rfl
    exact (quoted_cons h (by decide)).1 rfl
  refine ⟨front h, ?_⟩
  induction h with
  | nil =>
    rintro ⟨a, b, e⟩
    have := congrArg List.length e
    simp at this
    omega
  | plain _ h2 _ _ _ ih => exact three_cons ih (fun e => absurd e h2)
  | @escape e c t v _ h ih =>
    refine three_cons (three_cons ih ?_) (fun e => by cases e)
    rintro rfl q e
    cases t with
    | nil => cases e
    | cons d t =>
      obtain ⟨rfl, _⟩ := List.cons.inj e
      exact front h t rfl
  | @unicode hx t v c _ _ h3 _ _ ih =>
    have hne : ∀ c ∈ '\\' :: 'u' :: '{' :: (hx ++ ['}']), c ≠ '"' := by
      rintro c hc rfl
      simp only [List.mem_cons, List.mem_append, List.not_mem_nil, or_false] at hc
      rcases hc with hc | hc | hc | hc | hc
      · cases hc
      · cases hc
      · cases hc
      · have := isDigit_iff.2.1.mp (h3 _ hc)
        revert this
        decide
      · cases hc
    have := three_plain hne ih
    simpa using this
  | @space s t v _ h2 _ _ ih =>
    have hne : ∀ c ∈ '\\' :: s, c ≠ '"' := by
      rintro c hc rfl
      rcases List.mem_cons.mp hc with hc | hc
      · cases hc
      · exact absurd (h2 _ hc) (by decide)
    have := three_plain hne ih
    simpa using this

theorem contains_behind {p t a b : Str} (hp : ∀ c ∈ p, c ≠ '\\') (h : p ++ t = a ++ ['\\', '/'] ++ b) : Contains t ['\\', '/'] := by
  induction p generalizing a with
  | nil => exact ⟨a, b, h⟩
  | cons c p ih =>
    cases a with
    | nil => exact absurd (List.cons.inj h).1 (hp c (by simp))
    | cons d a => exact ih (fun c hc => hp c (by simp [hc])) (List.cons.inj h).2

/-- In a quoted string on one line, the two characters `\\/` do not survive. -/
theorem unescape_slash {q w : Str} (h : Quoted q w) : ∀ {x v : Str}, unescapeSlash (q ++ ['"']) = x ++ ['"'] → Quoted x v →
    ¬ Contains q ['\\', '/'] := by
  induction h with
  | nil =>
    rintro x v _ _ ⟨a, b, e⟩
    have := congrArg List.length e
    simp at this
  | @plain c t v h1 h2 h3 h4 _ ih =>
    rintro x v' e hq ⟨a, b, eq⟩
    obtain ⟨y, ey⟩ := unescapeSlash_last _ (t := t) (Nat.le_refl _)
    rw [List.cons_append, unescapeSlash_cons h1, ey, ← List.cons_append] at e
    obtain ⟨rfl, _⟩ := snoc_inj e
    obtain ⟨_, _, _, _, _, hq⟩ := quoted_cons hq h1
    cases a with
    | nil => exact h1 (List.cons.inj eq).1
    | cons a0 a => exact ih ey hq ⟨a, b, (List.cons.inj eq).2⟩
  | @escape e c t v h1 _ ih =>
    rintro x v' eq hq ⟨a, b, ec⟩
    obtain ⟨y, ey⟩ := unescapeSlash_last _ (t := t) (Nat.le_refl _)
    have hs : e ≠ '/' := by
      rintro rfl
      simp [escapes] at h1
    rw [List.cons_append, List.cons_append, unescapeSlash_back hs] at eq
    have inner : ∀ (h2 : e = '\\' → ∀ q, t ≠ '/' :: q), Contains t ['\\', '/'] := by
      intro h2
      match a, ec with
      | [], ec => exact absurd (List.cons.inj (List.cons.inj ec).2).1 hs
      | [_], ec =>
        obtain ⟨rfl, et⟩ := List.cons.inj (List.cons.inj ec).2
        exact absurd et (h2 rfl b)
      | _ :: _ :: a, ec => exact ⟨a, b, (List.cons.inj (List.cons.inj ec).2).2⟩
    by_cases hb : e = '\\'
    · subst hb
      have h2 : ∀ q, t ≠ '/' :: q := by
        rintro q rfl
        obtain ⟨z, ez⟩ := unescapeSlash_last _ (t := q) (Nat.le_refl _)
        rw [List.cons_append, unescapeSlash, if_pos ⟨rfl, rfl⟩, ez, ← List.cons_append, ← List.cons_append] at eq
        obtain ⟨rfl, _⟩ := snoc_inj eq
        rcases quoted_back hq (by decide) with ⟨c', _, h, _⟩ | ⟨h, _⟩
        · simp [escapes] at h
        · cases h
      have : unescapeSlash ('\\' :: (t ++ ['"'])) = '\\' :: unescapeSlash (t ++ ['"']) := by
        cases t with
        | nil => rfl
        | cons d q => exact unescapeSlash_back (fun hd => h2 q (by rw [hd])) _
      rw [this, ey, ← List.cons_append, ← List.cons_append] at eq
      obtain ⟨rfl, _⟩ := snoc_inj eq
      rcases quoted_back hq (by decide) with ⟨c', _, h, _, hq⟩ | ⟨h, _⟩
      · exact ih ey hq (inner fun _ => h2)
      · cases h
    · rw [unescapeSlash_cons hb, ey, ← List.cons_append, ← List.cons_append] at eq
      obtain ⟨rfl, _⟩ := snoc_inj eq
      rcases quoted_back hq (escapes_notBlank h1) with ⟨c', _, h, _, hq⟩ | ⟨rfl, _⟩
      · exact ih ey hq (inner fun h => absurd h hb)
      · simp [escapes] at h1
  | @unicode hx t v c h1 h2 h3 h4 _ ih =>
    rintro x v' eq hq hc
    obtain ⟨y, ey⟩ := unescapeSlash_last _ (t := t) (Nat.le_refl _)
    have : ('\\' :: 'u' :: '{' :: (hx ++ '}' :: t)) ++ ['"'] = '\\' :: 'u' :: '{' :: (hx ++ '}' :: (t ++ ['"'])) := by simp
    rw [this, unescapeSlash_back (by decide), unescapeSlash_cons (by decide), unescapeSlash_cons (by decide),
      unescapeSlash_plain (hex_plain h3), unescapeSlash_cons (by decide), ey] at eq
    have e2 : '\\' :: 'u' :: '{' :: (hx ++ '}' :: (y ++ ['"'])) = ('\\' :: 'u' :: '{' :: (hx ++ '}' :: y)) ++ ['"'] := by simp
    rw [e2] at eq
    obtain ⟨rfl, _⟩ := snoc_inj eq
    rcases quoted_back hq (by decide) with ⟨c', _, h, _⟩ | ⟨_, hx', _, t', w', e, hd, _, _, hq⟩
    · simp [escapes] at h
    · obtain ⟨rfl, rfl⟩ := split_unique (hex_noBrace h3) (hex_noBrace hd) (List.cons.inj e).2
      obtain ⟨a, b, e⟩ := hc
      cases a with
      | nil => cases (List.cons.inj (List.cons.inj e).2).1
      | cons a0 a =>
        have e : ('u' :: '{' :: (hx ++ ['}'])) ++ t = a ++ ['\\', '/'] ++ b := by simpa using (List.cons.inj e).2
        exact ih ey hq (contains_behind (fun c hc => by
          simp only [List.mem_cons, List.mem_append, List.not_mem_nil, or_false] at hc
          rcases hc with rfl | rfl | hc | rfl
          · decide
          · decide
          · exact hex_plain h3 c hc
          · decide) e)
  | @space s t v h1 h2 h3 _ ih =>
    rintro x v' eq hq hc
    obtain ⟨y, ey⟩ := unescapeSlash_last _ (t := t) (Nat.le_refl _)
    cases s with
    | nil => exact absurd rfl h1
    | cons a0 s =>
      have hb0 := h2 a0 (by simp)
      have ha0 : a0 ≠ '/' := by
        rintro rfl
        exact absurd hb0 (by decide)
      have hnb : ∀ c ∈ a0 :: s, c ≠ '\\' := by
        rintro c hc rfl
        exact absurd (h2 _ hc) (by decide)
      have this : ('\\' :: (a0 :: s ++ t)) ++ ['"'] = '\\' :: a0 :: (s ++ (t ++ ['"'])) := by simp
      rw [this, unescapeSlash_back ha0, ← List.cons_append, unescapeSlash_plain hnb, ey] at eq
      have e2 : '\\' :: (a0 :: s ++ (y ++ ['"'])) = ('\\' :: a0 :: (s ++ y)) ++ ['"'] := by simp
      rw [e2] at eq
      obtain ⟨rfl, _⟩ := snoc_inj eq
      obtain ⟨s', t', e, hs', ht', hq⟩ := quoted_blank hq hb0
      have hy : NoBlank y := by
        intro c q ec
        subst ec
        cases t with
        | nil =>
          have := congrArg List.length ey
          simp [unescapeSlash] at this
        | cons d t =>
          have hd := h3 d t rfl
          by_cases hd' : d = '\\'
          · subst hd'
            have hc : c = '\\' ∨ c = '/' := by
              rw [List.cons_append, List.cons_append] at ey
              cases t with
              | nil => rw [List.nil_append, unescapeSlash_back (by decide)] at ey; exact Or.inl (List.cons.inj ey).1.symm
              | cons d2 t =>
                rw [List.cons_append, unescapeSlash] at ey
                split at ey
                · exact Or.inr (List.cons.inj ey).1.symm
                · exact Or.inl (List.cons.inj ey).1.symm
            rcases hc with rfl | rfl <;> decide
          · rw [List.cons_append, unescapeSlash_cons hd', List.cons_append] at ey
            rw [← (List.cons.inj ey).1]
            exact hd
      obtain ⟨rfl, rfl⟩ := blank_split (fun c hc => h2 c (by simp [hc])) hs' hy ht' e
      obtain ⟨a, b, e⟩ := hc
      cases a with
      | nil => exact ha0 (List.cons.inj (List.cons.inj e).2).1
      | cons a1 a =>
        have e : (a0 :: s) ++ t = a ++ ['\\', '/'] ++ b := by simpa using (List.cons.inj e).2
        exact ih ey hq (contains_behind hnb e)

theorem MLine.spaces {p c x : Str} (hp : ∀ c ∈ p, Space c) (h : MLine c x) : MLine (p ++ c) (p ++ x) := by
  induction p with
  | nil => exact h
  | cons a p ih =>
    obtain ⟨h1, h2, h3, h4⟩ := space_chars (hp a (by simp))
    exact .plain h2 h1 h3 h4 (ih fun c hc => hp c (by simp [hc]))

/-- A quoted text with line breaks as the lines of a multi-line string. -/
theorem quoted_multi {pre q w : Str} {ls : List Str} (hp : ∀ c ∈ pre, Space c) (hq : Quoted q w) (hm : Multi pre (q ++ ['\n']) ls)
    (hw : w = joinLines ls) (hne : w ≠ []) (hn : ∃ c ∈ q, Newline c) : MLine q w := by
  generalize ht : q ++ ['\n'] = t at hm
  cases hm with
  | close => exact absurd hw hne
  | @empty sp nl t ls h1 h2 h =>
    have hs : MLine sp sp := by
      have := MLine.spaces h1 .nil
      simpa using this
    obtain ⟨rfl, _⟩ := quoted_line hs hq h2 ht
    obtain ⟨c, hc, hn⟩ := hn
    exact absurd hn (space_not_newline (h1 c hc))
  | @line c x nl t ls h1 h2 h3 h =>
    have hs := MLine.spaces hp h1
    obtain ⟨e1, e2, _⟩ := quoted_line hs hq h3 (by simpa using ht)
    rw [← e1, ← e2]
    exact hs

/-- **No other texts of strings survive `ensure_v2`.** -/
theorem v2_text_keeps {t w : Str} (h : StrText t w) (hs : StrText (v2StringRepr w t) w) : V2Keeps t w := by
  by_cases hp : isPlainIdent w = true
  · have e : v2StringRepr w t = w := by simp [v2StringRepr, hp]
    rw [e] at hs
    have hb := strText_ident hs (isPlainIdent_ident hp)
    exact ⟨hb.1, fun h => hb.2.2.1 (signedPoint_numberLike h), fun _ _ _ => Or.inl ⟨hb, isPlainIdent_free hp⟩⟩
  have hne : w ≠ [] := by
    rintro rfl
    exact hp (by decide)
  refine ⟨hne, fun h => hp (signedPoint_plain h), fun q et hq0 => Or.inr ?_⟩
  have hp : isPlainIdent w = false := by simpa using hp
  subst et
  have hq : Quoted q w := by
    generalize ht : '"' :: (q ++ ['"']) = t at h
    cases h with
    | bare h =>
      subst ht
      exact absurd (h.2.1 '"' (by simp)) (by decide)
    | quoted h =>
      obtain ⟨rfl, _⟩ := snoc_inj (List.cons.inj ht).2
      exact h
    | @multi nl pre t ls h0 h1 h =>
      have ht : q ++ ['"'] = ('"' :: '"' :: (nl ++ (t ++ ['"', '"']))) ++ ['"'] := by simpa using ht
      exact absurd (snoc_inj ht).1 (hq0 _)
    | raw => cases (List.cons.inj ht).1
    | rawMulti => cases (List.cons.inj ht).1
  constructor
  · intro hn
    obtain ⟨hq1, hq2⟩ := quoted_three hq
    have hq3 : ¬ Contains ('"' :: (q ++ ['"'])) ['"', '"', '"'] := by
      refine three_cons hq2 fun _ r e => ?_
      cases q with
      | nil => cases e
      | cons c b => exact hq1 b (by rw [(List.cons.inj e).1])
    rw [v2_many_lines hp hn hq3] at hs
    obtain ⟨pre, ls, h1, hm, e⟩ := strText_three hs
    exact quoted_multi h1 hq hm e hne hn
  · intro hn
    rw [v2_one_line hp hn] at hs
    obtain ⟨x, ex⟩ := unescapeSlash_last _ (t := q) (Nat.le_refl _)
    rw [ex] at hs
    have hx : ∀ c ∈ x, ¬ Newline c := by
      intro c hc hnl
      have := unescapeSlash_mem _ (t := q ++ ['"']) (Nat.le_refl _) c (by rw [ex]; simp [hc])
      rcases List.mem_append.mp this with h | h
      · exact hn c h hnl
      · rw [List.mem_singleton.mp h] at hnl
        exact absurd hnl (by decide)
    exact unescape_slash hq ex (strText_quote hs hx)

end Kdl
