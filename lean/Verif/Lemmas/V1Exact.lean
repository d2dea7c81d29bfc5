import Verif.Lemmas.V1Text
/-
Which texts of v1 strings survive the conversion to v2: no others than the `V1Good` ones.
-/

namespace Kdl
open Spec

/-! ### Tokens -/

theorem snoc_inj {a b : Str} {c d : Char} (h : a ++ [c] = b ++ [d]) : a = b ∧ c = d := by
  have := List.append_inj' h rfl
  exact ⟨this.1, by simpa using this.2⟩

theorem v1Escapes_notBlank {e c : Char} (h : (e, c) ∈ v1Escapes) : ¬ Blank e := by
  simp only [v1Escapes, List.mem_cons, Prod.mk.injEq, List.not_mem_nil, or_false] at h
  rcases h with ⟨rfl, _⟩ | ⟨rfl, _⟩ | ⟨rfl, _⟩ | ⟨rfl, _⟩ | ⟨rfl, _⟩ | ⟨rfl, _⟩ | ⟨rfl, _⟩ | ⟨rfl, _⟩ <;> decide

theorem v1Quoted_cons {c : Char} {t w : Str} (h : V1Quoted (c :: t) w) (h1 : c ≠ '\\') : c ≠ '"' ∧ ∃ w', w = c :: w' ∧ V1Quoted t w' := by
  generalize hx : c :: t = x at h
  cases h with
  | nil => cases hx
  | plain _ h2 h => obtain ⟨rfl, rfl⟩ := List.cons.inj hx; exact ⟨h2, _, rfl, h⟩
  | escape => exact absurd (List.cons.inj hx).1 h1
  | unicode => exact absurd (List.cons.inj hx).1 h1

/-- A backslash in a quoted v1 string. -/
theorem v1Quoted_back {t w : Str} (h : V1Quoted ('\\' :: t) w) :
    (∃ e c t' w', t = e :: t' ∧ w = c :: w' ∧ (e, c) ∈ v1Escapes ∧ V1Quoted t' w') ∨
    ∃ hx c t' w', t = 'u' :: '{' :: (hx ++ '}' :: t') ∧ w = c :: w' ∧ hx ≠ [] ∧ hx.length ≤ 6 ∧ (∀ x ∈ hx, IsDigit 16 x) ∧
      hexVal hx = c.toNat ∧ V1Quoted t' w' := by
  generalize hx : '\\' :: t = x at h
  cases h with
  | nil => cases hx
  | plain h1 => exact absurd (List.cons.inj hx).1.symm h1
  | escape h1 h => obtain ⟨_, rfl⟩ := List.cons.inj hx; exact Or.inl ⟨_, _, _, _, rfl, rfl, h1, h⟩
  | unicode h1 h2 h3 h4 h =>
    obtain ⟨_, rfl⟩ := List.cons.inj hx
    exact Or.inr ⟨_, _, _, _, rfl, rfl, h1, h2, h3, h4, h⟩

theorem hex_noBrace {hx : Str} (h : ∀ x ∈ hx, IsDigit 16 x) : ∀ c ∈ hx, c ≠ '}' := by
  rintro c hc rfl
  have := isDigit_iff.2.1.mp (h _ hc)
  revert this
  decide

theorem split_unique {d : Char} : ∀ {a b x y : Str}, (∀ c ∈ a, c ≠ d) → (∀ c ∈ b, c ≠ d) → a ++ d :: x = b ++ d :: y → a = b ∧ x = y
  | [], [], _, _, _, _, h => ⟨rfl, (List.cons.inj h).2⟩
  | [], c :: b, _, _, _, hb, h => absurd (List.cons.inj h).1.symm (hb c (by simp))
  | c :: a, [], _, _, ha, _, h => absurd (List.cons.inj h).1 (ha c (by simp))
  | c :: a, e :: b, _, _, ha, hb, h => by
    obtain ⟨rfl, h'⟩ := List.cons.inj h
    obtain ⟨rfl, rfl⟩ := split_unique (fun x hx => ha x (by simp [hx])) (fun x hx => hb x (by simp [hx])) h'
    exact ⟨rfl, rfl⟩

/-! ### One line -/

theorem unescapeSlash_last : ∀ (n : Nat) {t : Str}, t.length ≤ n → ∃ x, unescapeSlash (t ++ ['"']) = x ++ ['"']
  | _, [], _ => ⟨[], rfl⟩
  | 0, _ :: _, h => by simp at h
  | n + 1, c :: t, h => by
    by_cases hc : c = '\\'
    · subst hc
      cases t with
      | nil => exact ⟨['\\'], rfl⟩
      | cons d t =>
        by_cases hd : d = '/'
        · subst hd
          obtain ⟨x, e⟩ := unescapeSlash_last n (t := t) (by simp at h; omega)
          exact ⟨'/' :: x, by rw [List.cons_append, List.cons_append, unescapeSlash, if_pos ⟨rfl, rfl⟩, e]; rfl⟩
        · obtain ⟨x, e⟩ := unescapeSlash_last n (t := d :: t) (by simp at h ⊢; omega)
          exact ⟨'\\' :: x, by rw [List.cons_append, List.cons_append, unescapeSlash_back hd, ← List.cons_append, e]; rfl⟩
    · obtain ⟨x, e⟩ := unescapeSlash_last n (t := t) (by simp at h; omega)
      exact ⟨c :: x, by rw [List.cons_append, unescapeSlash_cons hc, e]; rfl⟩

theorem quoted_cons {c : Char} {t w : Str} (h : Quoted (c :: t) w) (h1 : c ≠ '\\') : c ≠ '"' ∧ ¬ Newline c ∧ ¬ Disallowed c ∧ ∃ w', w = c :: w' ∧ Quoted t w' := by
  generalize hx : c :: t = x at h
  cases h with
  | nil => cases hx
  | plain _ h2 h3 h4 h => obtain ⟨rfl, rfl⟩ := List.cons.inj hx; exact ⟨h2, h3, h4, _, rfl, h⟩
  | escape => exact absurd (List.cons.inj hx).1 h1
  | unicode => exact absurd (List.cons.inj hx).1 h1
  | space => exact absurd (List.cons.inj hx).1 h1

theorem quoted_back {e : Char} {t w : Str} (h : Quoted ('\\' :: e :: t) w) (hb : ¬ Blank e) :
    (∃ c w', (e, c) ∈ escapes ∧ w = c :: w' ∧ Quoted t w') ∨ (e = 'u' ∧ ∃ hx c t' w', t = '{' :: (hx ++ '}' :: t') ∧ (∀ x ∈ hx, IsDigit 16 x) ∧
      hexVal hx = c.toNat ∧ w = c :: w' ∧ Quoted t' w') := by
  generalize hx : '\\' :: e :: t = x at h
  cases h with
  | nil => cases hx
  | plain h1 => exact absurd (List.cons.inj hx).1.symm h1
  | escape h1 h => simp only [List.cons.injEq, true_and] at hx; obtain ⟨rfl, rfl⟩ := hx; exact Or.inl ⟨_, _, h1, rfl, h⟩
  | unicode h1 h2 h3 h4 h =>
    simp only [List.cons.injEq, true_and] at hx
    obtain ⟨rfl, rfl⟩ := hx
    exact Or.inr ⟨rfl, _, _, _, _, rfl, h3, h4, rfl, h⟩
  | @space w t v h1 h2 =>
    cases w with
    | nil => exact absurd rfl h1
    | cons b w =>
      simp only [List.cons_append, List.cons.injEq, true_and] at hx
      obtain ⟨rfl, _⟩ := hx
      exact absurd (h2 e (by simp)) hb

/-- On one line, only `V1Safe` texts stay strings. -/
theorem safe_of_unescape {t v : Str} (h : V1Quoted t v) : ∀ {x v' : Str}, unescapeSlash (t ++ ['"']) = x ++ ['"'] → Quoted x v' → V1Safe t v := by
  induction h with
  | nil => exact fun _ _ => .nil
  | @plain c t v h1 h2 _ ih =>
    intro x v' e hq
    obtain ⟨y, ey⟩ := unescapeSlash_last _ (t := t) (Nat.le_refl _)
    rw [List.cons_append, unescapeSlash_cons h1, ey, ← List.cons_append] at e
    obtain ⟨rfl, _⟩ := snoc_inj e
    obtain ⟨_, h3, h4, _, _, hq⟩ := quoted_cons hq h1
    exact .plain h1 h2 h3 h4 (ih ey hq)
  | @escape e c t v h1 _ ih =>
    intro x v' eq hq
    obtain ⟨y, ey⟩ := unescapeSlash_last _ (t := t) (Nat.le_refl _)
    by_cases hs : e = '/'
    · subst hs
      rw [List.cons_append, List.cons_append, unescapeSlash, if_pos ⟨rfl, rfl⟩, ey, ← List.cons_append] at eq
      obtain ⟨rfl, _⟩ := snoc_inj eq
      obtain ⟨_, _, _, _, _, hq⟩ := quoted_cons hq (by decide)
      exact .escape h1 (fun h => by cases h) (ih ey hq)
    · rw [List.cons_append, List.cons_append, unescapeSlash_back hs] at eq
      by_cases hb : e = '\\'
      · subst hb
        have h2 : ∀ q, t ≠ '/' :: q := by
          rintro q rfl
          obtain ⟨z, ez⟩ := unescapeSlash_last _ (t := q) (Nat.le_refl _)
          rw [List.cons_append, unescapeSlash, if_pos ⟨rfl, rfl⟩, ez, ← List.cons_append, ← List.cons_append] at eq
          obtain ⟨rfl, _⟩ := snoc_inj eq
          rcases quoted_back hq (by decide) with ⟨c', _, h, _⟩ | ⟨h, _⟩
          · simp [escapes] at h
          · cases h
        have : unescapeSlash ('\\' :: (t ++ ['"'])) = '\\' :: unescapeSlash (t ++ ['"']) := by
          cases t with
          | nil => rfl
          | cons d q => exact unescapeSlash_back (fun hd => h2 q (by rw [hd])) _
        rw [this, ey, ← List.cons_append, ← List.cons_append] at eq
        obtain ⟨rfl, _⟩ := snoc_inj eq
        rcases quoted_back hq (by decide) with ⟨c', _, h, _, hq⟩ | ⟨h, _⟩
        · exact .escape h1 (fun _ => h2) (ih ey hq)
        · cases h
      · rw [unescapeSlash_cons hb, ey, ← List.cons_append, ← List.cons_append] at eq
        obtain ⟨rfl, _⟩ := snoc_inj eq
        rcases quoted_back hq (v1Escapes_notBlank h1) with ⟨c', _, h, _, hq⟩ | ⟨rfl, _⟩
        · exact .escape h1 (fun h => absurd h hb) (ih ey hq)
        · simp [v1Escapes] at h1
  | @unicode hx t v c h1 h2 h3 h4 _ ih =>
    intro x v' eq hq
    obtain ⟨y, ey⟩ := unescapeSlash_last _ (t := t) (Nat.le_refl _)
    have : ('\\' :: 'u' :: '{' :: (hx ++ '}' :: t)) ++ ['"'] = '\\' :: 'u' :: '{' :: (hx ++ '}' :: (t ++ ['"'])) := by simp
    rw [this, unescapeSlash_back (by decide), unescapeSlash_cons (by decide), unescapeSlash_cons (by decide),
      unescapeSlash_plain (hex_plain h3), unescapeSlash_cons (by decide), ey] at eq
    have e2 : '\\' :: 'u' :: '{' :: (hx ++ '}' :: (y ++ ['"'])) = ('\\' :: 'u' :: '{' :: (hx ++ '}' :: y)) ++ ['"'] := by simp
    rw [e2] at eq
    obtain ⟨rfl, _⟩ := snoc_inj eq
    rcases quoted_back hq (by decide) with ⟨c', _, h, _⟩ | ⟨_, hx', _, t', w', e, hd, _, _, hq⟩
    · simp [escapes] at h
    · obtain ⟨rfl, rfl⟩ := split_unique (hex_noBrace h3) (hex_noBrace hd) (List.cons.inj e).2
      exact .unicode h1 h2 h3 h4 (ih ey hq)

/-! ### Lengths -/

theorem unescapeSlash_length : ∀ (n : Nat) {t : Str}, t.length ≤ n → (unescapeSlash t).length ≤ t.length
  | _, [], _ => Nat.le_refl _
  | 0, _ :: _, h => by simp at h
  | n + 1, [c], _ => by simp [unescapeSlash]
  | n + 1, c :: d :: t, h => by
    rw [unescapeSlash]
    split
    · have := unescapeSlash_length n (t := t) (by simp at h; omega)
      simp only [List.length_cons]
      omega
    · have := unescapeSlash_length n (t := d :: t) (by simp at h ⊢; omega)
      simp only [List.length_cons] at this ⊢
      omega

/-- A value is no longer than its text, and as long only if nothing is escaped. -/
theorem quoted_length {t v : Str} (h : Quoted t v) :
    v.length ≤ t.length ∧ (v.length = t.length → v = t ∧ ∀ c ∈ t, c ≠ '\\' ∧ c ≠ '"' ∧ ¬ Newline c ∧ ¬ Disallowed c) := by
  induction h with
  | nil => exact ⟨Nat.le_refl _, by simp⟩
  | plain h1 h2 h3 h4 _ ih =>
    refine ⟨by simp [ih.1], fun e => ?_⟩
    obtain ⟨rfl, ih⟩ := ih.2 (by simpa using e)
    refine ⟨rfl, fun c hc => ?_⟩
    rcases List.mem_cons.mp hc with rfl | hc
    · exact ⟨h1, h2, h3, h4⟩
    · exact ih c hc
  | escape _ _ ih =>
    have := ih.1
    refine ⟨by simp; omega, fun e => ?_⟩
    simp at e; omega
  | unicode _ _ _ _ _ ih =>
    have := ih.1
    refine ⟨by simp; omega, fun e => ?_⟩
    simp at e; omega
  | space _ _ _ _ ih =>
    have := ih.1
    refine ⟨by simp; omega, fun e => ?_⟩
    simp at e; omega

theorem mline_length {t v : Str} (h : MLine t v) :
    v.length ≤ t.length ∧ (v.length = t.length → v = t ∧ ∀ c ∈ t, c ≠ '\\' ∧ ¬ Newline c ∧ ¬ Disallowed c) := by
  induction h with
  | nil => exact ⟨Nat.le_refl _, by simp⟩
  | plain h1 h2 h3 h4 _ ih =>
    refine ⟨by simp [ih.1], fun e => ?_⟩
    obtain ⟨rfl, ih⟩ := ih.2 (by simpa using e)
    refine ⟨rfl, fun c hc => ?_⟩
    rcases List.mem_cons.mp hc with rfl | hc
    · exact ⟨h1, h3, h4⟩
    · exact ih c hc
  | quote _ _ ih =>
    refine ⟨by simp [ih.1], fun e => ?_⟩
    obtain ⟨rfl, ih⟩ := ih.2 (by simpa using e)
    refine ⟨rfl, fun c hc => ?_⟩
    rcases List.mem_cons.mp hc with rfl | hc
    · decide
    · exact ih c hc
  | escape _ _ ih =>
    have := ih.1
    refine ⟨by simp; omega, fun e => ?_⟩
    simp at e; omega
  | unicode _ _ _ _ _ ih =>
    have := ih.1
    refine ⟨by simp; omega, fun e => ?_⟩
    simp at e; omega
  | space _ _ _ _ _ ih =>
    have := ih.1
    refine ⟨by simp; omega, fun e => ?_⟩
    simp at e; omega

/-- The lines with a line feed behind each. -/
def endLines (ls : List Str) : Nat := (ls.map fun l => l.length + 1).sum

theorem joinLines_length : ∀ {ls : List Str}, ls ≠ [] → (joinLines ls).length + 1 = endLines ls
  | [l], _ => by rw [joinLines_one]; simp [endLines]
  | l :: l2 :: ls, _ => by
    have := joinLines_length (ls := l2 :: ls) (by simp)
    rw [joinLines_two]
    simp only [endLines, List.map_cons, List.sum_cons, List.length_append, List.length_cons] at this ⊢
    omega

theorem newlineSeq_length {nl t : Str} (h : NewlineSeq nl t) : 1 ≤ nl.length := by
  rcases h with rfl | ⟨c, rfl, _⟩ <;> simp

/-- As `quoted_length`, over several lines. -/
theorem multi_length {pre t : Str} {ls : List Str} (h : Multi pre t ls) : endLines ls ≤ t.length ∧
    (endLines ls = t.length → ∀ l ∈ ls, Visible l ∧ ∀ c ∈ l, c ≠ '\\' ∧ ¬ Newline c ∧ ¬ Disallowed c) := by
  induction h with
  | close => exact ⟨by simp [endLines], by simp⟩
  | empty h1 h2 _ ih =>
    have := newlineSeq_length h2
    have h := ih.1
    simp only [endLines, List.map_cons, List.sum_cons, List.length_append, List.length_nil] at h ⊢
    refine ⟨by omega, fun e l hl => ?_⟩
    rcases List.mem_cons.mp hl with rfl | hl
    · exact ⟨Or.inl rfl, by simp⟩
    · refine ih.2 ?_ l hl
      unfold endLines
      omega
  | line h1 h2 h3 _ ih =>
    have := newlineSeq_length h3
    have h := ih.1
    have hm := mline_length h1
    have hm1 := hm.1
    simp only [endLines, List.map_cons, List.sum_cons, List.length_append] at h ⊢
    refine ⟨by omega, fun e l hl => ?_⟩
    rcases List.mem_cons.mp hl with rfl | hl
    · obtain ⟨rfl, hc⟩ := hm.2 (by omega)
      exact ⟨Or.inr h2, hc⟩
    · refine ih.2 ?_ l hl
      unfold endLines
      omega

theorem rawMulti_length {n : Nat} {pre t : Str} {ls : List Str} (h : RawMulti n pre t ls) : endLines ls ≤ t.length ∧
    (endLines ls = t.length → ∀ l ∈ ls, Visible l ∧ ∀ c ∈ l, ¬ Newline c ∧ ¬ Disallowed c) := by
  induction h with
  | close => exact ⟨by simp [endLines], by simp⟩
  | empty h1 h2 _ ih =>
    have := newlineSeq_length h2
    have h := ih.1
    simp only [endLines, List.map_cons, List.sum_cons, List.length_append, List.length_nil] at h ⊢
    refine ⟨by omega, fun e l hl => ?_⟩
    rcases List.mem_cons.mp hl with rfl | hl
    · exact ⟨Or.inl rfl, by simp⟩
    · refine ih.2 ?_ l hl
      unfold endLines
      omega
  | line h0 h1 h2 h3 _ ih =>
    have := newlineSeq_length h3
    have h := ih.1
    simp only [endLines, List.map_cons, List.sum_cons, List.length_append] at h ⊢
    refine ⟨by omega, fun e l hl => ?_⟩
    rcases List.mem_cons.mp hl with rfl | hl
    · exact ⟨Or.inr h2, h0⟩
    · refine ih.2 ?_ l hl
      unfold endLines
      omega

/-! ### Several lines -/

theorem v1Quoted_peel {p t w : Str} (hp : ∀ c ∈ p, c ≠ '\\') (h : V1Quoted (p ++ t) w) : ∃ w', w = p ++ w' ∧ V1Quoted t w' := by
  induction p generalizing w with
  | nil => exact ⟨w, rfl, h⟩
  | cons c p ih =>
    obtain ⟨_, w1, rfl, h'⟩ := v1Quoted_cons h (hp c (by simp))
    obtain ⟨w2, rfl, h2⟩ := ih (fun c hc => hp c (by simp [hc])) h'
    exact ⟨w2, rfl, h2⟩

theorem v1Quoted_nil {w : Str} (h : V1Quoted [] w) : w = [] := by cases h; rfl

theorem spaces_noBack {p : Str} (h : ∀ c ∈ p, Space c) : ∀ c ∈ p, c ≠ '\\' := by
  rintro c hc rfl
  exact absurd (h _ hc) (by decide)

theorem newlineSeq_noBack {nl t : Str} (h : NewlineSeq nl t) : ∀ c ∈ nl, c ≠ '\\' := by
  rcases h with rfl | ⟨c, rfl, hn, _⟩
  · decide
  · intro x hx e
    rw [List.mem_singleton] at hx
    subst hx e
    exact absurd hn (by decide)

theorem joinLines_cons {l : Str} {ls : List Str} (h : ls ≠ []) : joinLines (l :: ls) = l ++ '\n' :: joinLines ls := by
  cases ls with
  | nil => exact absurd rfl h
  | cons l2 ls => exact joinLines_two _ _ _

theorem escapes_value {e c d : Char} (h1 : (e, c) ∈ escapes) (h2 : (e, d) ∈ v1Escapes) : d = c ∧ e ≠ '/' := by
  simp only [escapes, List.mem_cons, Prod.mk.injEq, List.not_mem_nil, or_false] at h1
  rcases h1 with ⟨rfl, rfl⟩ | ⟨rfl, rfl⟩ | ⟨rfl, rfl⟩ | ⟨rfl, rfl⟩ | ⟨rfl, rfl⟩ | ⟨rfl, rfl⟩ | ⟨rfl, rfl⟩ | ⟨rfl, rfl⟩ <;>
    simp [v1Escapes] at h2 <;> exact ⟨h2, by decide⟩

/-- A line of a multi-line string that is also part of a quoted v1 string. -/
theorem v1_mline {c x : Str} (hm : MLine c x) : ∀ {r w : Str}, V1Quoted (c ++ r) w → ∃ w', w = x ++ w' ∧ V1Line c x ∧ V1Quoted r w' := by
  induction hm with
  | nil => exact fun h => ⟨_, rfl, .nil, h⟩
  | plain h1 h2 h3 h4 _ ih =>
    intro r w h
    obtain ⟨_, w1, rfl, h'⟩ := v1Quoted_cons h h1
    obtain ⟨w2, rfl, hl, h5⟩ := ih h'
    exact ⟨w2, rfl, .plain h1 h2 h3 h4 hl, h5⟩
  | quote _ _ ih =>
    intro r w h
    exact absurd rfl (v1Quoted_cons h (by decide)).1
  | @escape e c t v h1 _ ih =>
    intro r w h
    rcases v1Quoted_back h with ⟨e', c', t', w', et, rfl, hv, h⟩ | ⟨hx, c', t', w', et, _⟩
    · obtain ⟨rfl, rfl⟩ := List.cons.inj et
      obtain ⟨rfl, he⟩ := escapes_value h1 hv
      obtain ⟨w2, rfl, hl, h⟩ := ih h
      exact ⟨w2, rfl, .escape hv he hl, h⟩
    · obtain ⟨rfl, _⟩ := List.cons.inj et
      simp [escapes] at h1
  | @unicode hx t v c h1 h2 h3 h4 _ ih =>
    intro r w h
    rcases v1Quoted_back h with ⟨e', c', t', w', et, rfl, hv, h⟩ | ⟨hx', c', t', w', et, rfl, _, _, h3', h4', h⟩
    · obtain ⟨rfl, _⟩ := List.cons.inj et
      simp [v1Escapes] at hv
    · have et : hx ++ '}' :: (t ++ r) = hx' ++ '}' :: t' := by simpa using et
      obtain ⟨rfl, rfl⟩ := split_unique (hex_noBrace h3) (hex_noBrace h3') et
      have : c' = c := Char.toNat_inj.mp (h4'.symm.trans h4)
      subst this
      obtain ⟨w2, rfl, hl, h⟩ := ih h
      exact ⟨w2, rfl, .unicode h1 h2 h3 h4 hl, h⟩
  | @space w t v h0 h1 h2 _ _ ih =>
    intro r y h
    cases w with
    | nil => exact absurd rfl h1
    | cons b w =>
      rcases v1Quoted_back h with ⟨e', c', t', w', et, _, hv, _⟩ | ⟨hx', c', t', w', et, _⟩
      · obtain ⟨rfl, _⟩ := List.cons.inj et
        exact absurd (h2 _ (by simp)) (v1Escapes_notBlank hv)
      · obtain ⟨rfl, _⟩ := List.cons.inj et
        exact absurd (h2 'u' (by simp)) (by decide)

theorem multi_nil {pre : Str} {ls : List Str} (h : Multi pre [] ls) : pre = [] ∧ ls = [] := by
  have := (multi_length h).1
  cases ls with
  | nil =>
    refine ⟨?_, rfl⟩
    generalize hx : ([] : Str) = x at h
    generalize hy : ([] : List Str) = y at h
    cases h with
    | close =>
      have e := (List.append_eq_nil_iff.mp hx.symm)
      rw [e.1, e.2]
      rfl
    | empty => cases hy
    | line => cases hy
  | cons l ls => simp [endLines] at this

/-- The lines of a quoted v1 string as lines of a multi-line string. -/
theorem multi_v1 {pre t : Str} {ls : List Str} (hp : ∀ c ∈ pre, Space c) (h : Multi pre t ls) : ∀ {b w : Str}, t = b ++ ['\n'] →
    V1Quoted b w → pre = [] ∧ ls ≠ [] ∧
      (w = joinLines ls → ∃ cs, cs ≠ [] ∧ b = joinLines cs ∧ V1Lines cs ls ∧ ∀ c ∈ cs, Visible c) := by
  induction h with
  | @close e he =>
    intro b w et hq
    exfalso
    rcases List.eq_nil_or_concat e with rfl | ⟨e', d, rfl⟩
    · rw [List.append_nil] at et
      exact absurd (hp '\n' (by rw [et]; simp)) (by decide)
    · rw [List.concat_eq_append, ← List.append_assoc] at et
      obtain ⟨rfl, rfl⟩ := snoc_inj et
      obtain ⟨w', _, hq⟩ := v1Quoted_peel (spaces_noBack hp) hq
      rw [List.concat_eq_append] at he
      generalize hx : e' ++ ['\n'] = x at he
      cases he with
      | nil => simp at hx
      | @cons u y h1 h2 =>
        cases u with
        | nil => exact absurd rfl h1
        | cons a u =>
          cases e' with
          | nil => simp at hx
          | cons a1 e' =>
            obtain ⟨rfl, hx2⟩ := List.cons.inj hx
            rcases v1Quoted_back hq with ⟨e2, c', t', w', et, _, hv, _⟩ | ⟨hx', c', t', w', et, _⟩
            · subst et
              obtain ⟨rfl, _⟩ := List.cons.inj hx2
              exact absurd (h2 _ (by simp)) (v1Escapes_notBlank hv)
            · subst et
              obtain ⟨rfl, _⟩ := List.cons.inj hx2
              exact absurd (h2 'u' (by simp)) (by decide)
  | @empty sp nl t ls h1 h2 h ih =>
    intro b w et hq
    rcases List.eq_nil_or_concat t with rfl | ⟨b', d, rfl⟩
    · obtain ⟨rfl, rfl⟩ := multi_nil h
      refine ⟨rfl, by simp, fun ew => ?_⟩
      rw [joinLines_one] at ew
      subst ew
      rcases h2 with rfl | ⟨c, rfl, _⟩
      · have et : (sp ++ ['\r']) ++ ['\n'] = b ++ ['\n'] := by simpa using et
        obtain ⟨rfl, _⟩ := snoc_inj et
        obtain ⟨w', e, hq⟩ := v1Quoted_peel (spaces_noBack h1) hq
        obtain ⟨_, w2, rfl, _⟩ := v1Quoted_cons hq (by decide)
        simp at e
      · obtain ⟨rfl, _⟩ := snoc_inj (by simpa using et : sp ++ [c] = b ++ ['\n'])
        obtain ⟨w', e, _⟩ := v1Quoted_peel (t := []) (spaces_noBack h1) (by simpa using hq)
        have hs : sp = [] := (List.append_eq_nil_iff.mp e.symm).1
        subst hs
        exact ⟨[[]], by simp, (joinLines_one _).symm, .cons .nil .nil, by simp [Visible]⟩
    · have et : (sp ++ (nl ++ b')) ++ [d] = b ++ ['\n'] := by simpa using et
      obtain ⟨rfl, rfl⟩ := snoc_inj et
      obtain ⟨w1, rfl, hq1⟩ := v1Quoted_peel (spaces_noBack h1) hq
      obtain ⟨w2, rfl, hq2⟩ := v1Quoted_peel (newlineSeq_noBack h2) hq1
      obtain ⟨hpre, hls, ih⟩ := ih (List.concat_eq_append) hq2
      refine ⟨hpre, by simp, fun ew => ?_⟩
      rw [joinLines_cons hls, List.nil_append] at ew
      cases sp with
      | cons a sp =>
        obtain ⟨rfl, _⟩ := List.cons.inj ew
        exact absurd (h1 '\n' (by simp)) (by decide)
      | nil =>
        rcases h2 with rfl | ⟨c, rfl, _⟩
        · cases (List.cons.inj ew).1
        · obtain ⟨rfl, ew'⟩ := List.cons.inj ew
          obtain ⟨cs, hne, rfl, hl, hv⟩ := ih ew'
          refine ⟨[] :: cs, by simp, (joinLines_cons hne).symm, .cons .nil hl, fun c hc => ?_⟩
          rcases List.mem_cons.mp hc with rfl | hc
          · exact Or.inl rfl
          · exact hv c hc
  | @line c x nl t ls h1 h2 h3 h ih =>
    intro b w et hq
    rcases List.eq_nil_or_concat t with rfl | ⟨b', d, rfl⟩
    · obtain ⟨rfl, rfl⟩ := multi_nil h
      refine ⟨rfl, by simp, fun ew => ?_⟩
      rw [joinLines_one] at ew
      subst ew
      rcases h3 with rfl | ⟨d, rfl, _⟩
      · have et : (c ++ ['\r']) ++ ['\n'] = b ++ ['\n'] := by simpa using et
        obtain ⟨rfl, _⟩ := snoc_inj et
        obtain ⟨w', e, _, hq⟩ := v1_mline h1 hq
        obtain ⟨_, w2, rfl, _⟩ := v1Quoted_cons hq (by decide)
        simp at e
      · obtain ⟨rfl, _⟩ := snoc_inj (by simpa using et : c ++ [d] = b ++ ['\n'])
        obtain ⟨w', _, hl, _⟩ := v1_mline h1 (r := []) (by simpa using hq)
        refine ⟨[c], by simp, (joinLines_one _).symm, .cons hl .nil, fun y hy => ?_⟩
        rw [List.mem_singleton] at hy
        subst hy
        exact Or.inr h2
    · have et : (pre ++ (c ++ (nl ++ b'))) ++ [d] = b ++ ['\n'] := by simpa using et
      obtain ⟨rfl, rfl⟩ := snoc_inj et
      obtain ⟨w1, rfl, hq1⟩ := v1Quoted_peel (spaces_noBack hp) hq
      obtain ⟨w2, rfl, hl, hq2⟩ := v1_mline h1 hq1
      obtain ⟨w3, rfl, hq3⟩ := v1Quoted_peel (newlineSeq_noBack h3) hq2
      obtain ⟨rfl, hls, ih⟩ := ih (List.concat_eq_append) hq3
      refine ⟨rfl, by simp, fun ew => ?_⟩
      rw [joinLines_cons hls, List.nil_append] at ew
      have ew := List.append_cancel_left ew
      rcases h3 with rfl | ⟨d, rfl, _⟩
      · cases (List.cons.inj ew).1
      · obtain ⟨rfl, ew'⟩ := List.cons.inj ew
        obtain ⟨cs, hne, rfl, hl', hv⟩ := ih ew'
        refine ⟨c :: cs, by simp, (joinLines_cons hne).symm, .cons hl hl', fun y hy => ?_⟩
        rcases List.mem_cons.mp hy with rfl | hy
        · exact Or.inr h2
        · exact hv y hy

/-! ### The shape of the converted texts -/

theorem unescapeSlash_mem : ∀ (n : Nat) {t : Str}, t.length ≤ n → ∀ c ∈ unescapeSlash t, c ∈ t
  | _, [], _ => by simp [unescapeSlash]
  | 0, _ :: _, h => by simp at h
  | n + 1, [c], _ => by simp [unescapeSlash]
  | n + 1, c :: d :: t, h => by
    rw [unescapeSlash]
    split
    · next e =>
      have := unescapeSlash_mem n (t := t) (by simp at h; omega)
      intro x hx
      rcases List.mem_cons.mp hx with rfl | hx
      · simp [e.2]
      · simp [this x hx]
    · have := unescapeSlash_mem n (t := d :: t) (by simp at h ⊢; omega)
      intro x hx
      rcases List.mem_cons.mp hx with rfl | hx
      · simp
      · exact List.mem_cons_of_mem _ (this x hx)

theorem trim_quotes (b : Str) : trim ('"' :: (b ++ ['"'])) = '"' :: (b ++ ['"']) :=
  trim_ends (q := b ++ ['"']) (p := '"' :: b) rfl (by decide) rfl (by decide)

theorem trim_raw (n : Nat) (b : Str) :
    trim (hashes (n + 1) ++ '"' :: (b ++ '"' :: hashes (n + 1))) = hashes (n + 1) ++ '"' :: (b ++ '"' :: hashes (n + 1)) := by
  obtain ⟨p, d, e, hd⟩ := hashes_last (n := n) b
  exact trim_ends (c := '#') (q := hashes n ++ '"' :: (b ++ '"' :: hashes (n + 1))) rfl (by decide) e
    (by rcases hd with rfl | rfl <;> decide)

theorem v2_one_line {b w : Str} (hp : isPlainIdent w = false) (hb : ∀ c ∈ b, ¬ Newline c) :
    v2StringRepr w ('"' :: (b ++ ['"'])) = '"' :: unescapeSlash (b ++ ['"']) := by
  have hst : stripR ('"' :: (b ++ ['"'])) = '"' :: (b ++ ['"']) := rfl
  have hsh : startsWithHash ('"' :: (b ++ ['"'])) = false := rfl
  have hany : ('"' :: (b ++ ['"'])).any isNewlineChar = false := by
    refine any_newline_false fun c hc => ?_
    simp only [List.mem_cons, List.mem_append, List.not_mem_nil, or_false] at hc
    rcases hc with rfl | hc | rfl
    · decide
    · exact hb c hc
    · decide
  unfold v2StringRepr
  simp only [trim_quotes, hst, hp, Bool.false_eq_true, if_false, hany, hsh, Bool.not_false, if_true]
  rw [unescapeSlash_cons (by decide)]

theorem v2_many_lines {b w : Str} (hp : isPlainIdent w = false) (hb : ∃ c ∈ b, Newline c)
    (hq : ¬ Contains ('"' :: (b ++ ['"'])) ['"', '"', '"']) :
    v2StringRepr w ('"' :: (b ++ ['"'])) = '"' :: '"' :: '"' :: ('\n' :: ((b ++ ['\n']) ++ ['"', '"', '"'])) := by
  have hst : stripR ('"' :: (b ++ ['"'])) = '"' :: (b ++ ['"']) := rfl
  obtain ⟨c, hc, hn⟩ := hb
  have hany : ('"' :: (b ++ ['"'])).any isNewlineChar = true := any_newline.mpr ⟨c, by simp [hc], hn⟩
  have hcon : containsStr ('"' :: (b ++ ['"'])) ['"', '"', '"'] = false := by
    rw [Bool.eq_false_iff]
    exact fun h => hq (contains_iff.mp h)
  unfold v2StringRepr
  simp only [trim_quotes, hst, hp, Bool.false_eq_true, if_false, hany, if_true, hcon]
  simp [replaceFirstQuote]

theorem raw_any {n : Nat} {b : Str} : (hashes (n + 1) ++ '"' :: (b ++ '"' :: hashes (n + 1))).any isNewlineChar = true ↔ ∃ c ∈ b, Newline c := by
  rw [any_newline]
  constructor
  · rintro ⟨c, hc, hn⟩
    have hh : c ∉ hashes (n + 1) := by
      intro h
      rw [(List.mem_replicate.mp h).2] at hn
      exact absurd hn (by decide)
    simp only [List.mem_append, List.mem_cons, hh, false_or, or_false] at hc
    rcases hc with rfl | hc | rfl
    · exact absurd hn (by decide)
    · exact ⟨c, hc, hn⟩
    · exact absurd hn (by decide)
  · rintro ⟨c, hc, hn⟩
    exact ⟨c, by simp [hc], hn⟩

theorem v2_raw {n : Nat} {b w : Str} (hp : isPlainIdent w = false) (hb : ¬ ∃ c ∈ b, Newline c) :
    v2StringRepr w (hashes (n + 1) ++ '"' :: (b ++ '"' :: hashes (n + 1))) = hashes (n + 1) ++ '"' :: (b ++ '"' :: hashes (n + 1)) := by
  have hst : stripR (hashes (n + 1) ++ '"' :: (b ++ '"' :: hashes (n + 1))) = hashes (n + 1) ++ '"' :: (b ++ '"' :: hashes (n + 1)) := rfl
  have hsh : startsWithHash (hashes (n + 1) ++ '"' :: (b ++ '"' :: hashes (n + 1))) = true := rfl
  have hany : (hashes (n + 1) ++ '"' :: (b ++ '"' :: hashes (n + 1))).any isNewlineChar = false := by
    rw [Bool.eq_false_iff]
    exact fun h => hb (raw_any.mp h)
  unfold v2StringRepr
  simp only [trim_raw, hst, hp, Bool.false_eq_true, if_false, hany, hsh, Bool.not_true]

theorem v2_rawMany {n : Nat} {b w : Str} (hp : isPlainIdent w = false) (hb : ∃ c ∈ b, Newline c) :
    (Contains (hashes (n + 1) ++ '"' :: (b ++ '"' :: hashes (n + 1))) ['"', '"', '"'] ∧
      v2StringRepr w (hashes (n + 1) ++ '"' :: (b ++ '"' :: hashes (n + 1))) = hashes (n + 1) ++ '"' :: (b ++ '"' :: hashes (n + 1))) ∨
    (¬ Contains (hashes (n + 1) ++ '"' :: (b ++ '"' :: hashes (n + 1))) ['"', '"', '"'] ∧
      v2StringRepr w (hashes (n + 1) ++ '"' :: (b ++ '"' :: hashes (n + 1))) =
        hashes (n + 1) ++ '"' :: '"' :: '"' :: ('\n' :: ((b ++ ['\n']) ++ '"' :: '"' :: '"' :: hashes (n + 1)))) := by
  have hst : stripR (hashes (n + 1) ++ '"' :: (b ++ '"' :: hashes (n + 1))) = hashes (n + 1) ++ '"' :: (b ++ '"' :: hashes (n + 1)) := rfl
  have hany := (raw_any (n := n)).mpr hb
  by_cases hc : Contains (hashes (n + 1) ++ '"' :: (b ++ '"' :: hashes (n + 1))) ['"', '"', '"']
  · refine Or.inl ⟨hc, ?_⟩
    unfold v2StringRepr
    simp only [trim_raw, hst, hp, Bool.false_eq_true, if_false, hany, if_true, contains_iff.mpr hc]
  · refine Or.inr ⟨hc, ?_⟩
    have hcon : containsStr (hashes (n + 1) ++ '"' :: (b ++ '"' :: hashes (n + 1))) ['"', '"', '"'] = false := by
      rw [Bool.eq_false_iff]
      exact fun h => hc (contains_iff.mp h)
    unfold v2StringRepr
    simp only [trim_raw, hst, hp, Bool.false_eq_true, if_false, hany, if_true, hcon]
    rw [replaceFirstQuote_skip (hashes_noQuote _)]
    have : (hashes (n + 1) ++ (['"', '"', '"', '\n'] ++ (b ++ '"' :: hashes (n + 1)))).reverse =
        hashes (n + 1) ++ '"' :: ((hashes (n + 1) ++ (['"', '"', '"', '\n'] ++ b)).reverse) := by
      simp [hashes]
    rw [this, replaceFirstQuote_skip (hashes_noQuote _)]
    simp [hashes]

/-! ### Reading the converted texts -/

/-- A text that starts with one quotation mark. -/
theorem strText_quote {x w : Str} (h : StrText ('"' :: (x ++ ['"'])) w) (hx : ∀ c ∈ x, ¬ Newline c) : Quoted x w := by
  generalize ht : '"' :: (x ++ ['"']) = t at h
  cases h with
  | bare h =>
    subst ht
    exact absurd (h.2.1 '"' (by simp)) (by decide)
  | quoted h =>
    obtain ⟨rfl, _⟩ := snoc_inj (List.cons.inj ht).2
    exact h
  | @multi nl pre t ls h0 h1 h =>
    exfalso
    have ht : x ++ ['"'] = ('"' :: '"' :: (nl ++ (t ++ ['"', '"']))) ++ ['"'] := by simpa using ht
    obtain ⟨rfl, _⟩ := snoc_inj ht
    rcases h0 with rfl | ⟨c, rfl, hn, _⟩
    · exact hx '\n' (by simp) (by decide)
    · exact hx c (by simp) hn
  | raw => cases (List.cons.inj ht).1
  | rawMulti => cases (List.cons.inj ht).1

/-- A text that starts with three quotation marks and a line feed. -/
theorem strText_three {b w : Str} (h : StrText ('"' :: '"' :: '"' :: ('\n' :: ((b ++ ['\n']) ++ ['"', '"', '"']))) w) :
    ∃ pre ls, (∀ c ∈ pre, Space c) ∧ Multi pre (b ++ ['\n']) ls ∧ w = joinLines ls := by
  generalize ht : '"' :: '"' :: '"' :: ('\n' :: ((b ++ ['\n']) ++ ['"', '"', '"'])) = t at h
  cases h with
  | bare h =>
    subst ht
    exact absurd (h.2.1 '"' (by simp)) (by decide)
  | @quoted t _ h =>
    exfalso
    have ht := (List.cons.inj ht).2
    cases t with
    | nil => cases ht
    | cons c t =>
      obtain ⟨rfl, _⟩ := List.cons.inj ht
      exact (quoted_cons h (by decide)).1 rfl
  | @multi nl pre t ls h0 h1 h =>
    simp only [List.cons.injEq, true_and] at ht
    rcases h0 with rfl | ⟨c, rfl, _⟩
    · cases (List.cons.inj ht).1
    · have ht := (List.cons.inj ht).2
      have ht := List.append_cancel_right ht
      exact ⟨pre, ls, h1, ht ▸ h, rfl⟩
  | raw => cases (List.cons.inj ht).1
  | rawMulti => cases (List.cons.inj ht).1

theorem hashes_inj {n m : Nat} (h : hashes n = hashes m) : n = m := by
  have := congrArg List.length h
  simpa [hashes] using this

/-- A text that starts with hashes. -/
theorem strText_hash {n : Nat} {x w : Str} (h : StrText (hashes (n + 1) ++ '"' :: (x ++ '"' :: hashes (n + 1))) w) :
    (RawBody (n + 1) x ∧ w = x) ∨ ∃ nl pre t ls, NewlineSeq nl t ∧ (∀ c ∈ pre, Space c) ∧ RawMulti (n + 1) pre t ls ∧ w = joinLines ls ∧
      x = '"' :: '"' :: (nl ++ (t ++ ['"', '"'])) := by
  generalize ht : hashes (n + 1) ++ '"' :: (x ++ '"' :: hashes (n + 1)) = t at h
  cases h with
  | bare h =>
    subst ht
    exact absurd (h.2.1 '"' (by simp)) (by decide)
  | quoted => cases (List.cons.inj ht).1
  | multi => cases (List.cons.inj ht).1
  | @raw m y h =>
    obtain ⟨e, ht⟩ := split_unique (hashes_noQuote _) (hashes_noQuote _) ht
    have e := hashes_inj e
    have e : n = m := by omega
    subst e
    have := List.append_cancel_right ht
    subst this
    exact Or.inl ⟨h, rfl⟩
  | @rawMulti m nl pre t ls h0 h1 h h2 =>
    obtain ⟨e, ht⟩ := split_unique (hashes_noQuote _) (hashes_noQuote _) ht
    have e := hashes_inj e
    have e : n = m := by omega
    subst e
    have ht : x ++ ('"' :: hashes (n + 1)) = ('"' :: '"' :: (nl ++ (t ++ ['"', '"']))) ++ ('"' :: hashes (n + 1)) := by simpa using ht
    exact Or.inr ⟨nl, pre, t, ls, h0, h1, h, rfl, List.append_cancel_right ht⟩

theorem signedPoint_plain {w : Str} (h : SignedPoint w) : isPlainIdent w = true := by
  obtain ⟨⟨g, d, t, hg, hd, rfl⟩, hid⟩ := h
  have ha : (g :: '.' :: d :: t).any isDisallowedIdentChar = false := by
    rw [List.any_eq_false]
    intro c hc
    simp [isDisallowedIdentChar_iff.mpr (hid c hc)]
  have h0 : isDecDigit '.' = false := by decide
  rcases hg with rfl | rfl
  · have h1 : isDecDigit '+' = false := by decide
    simp [isPlainIdent, ha, startsWithDigit, looksNumeric, reservedWords, h0, h1]
  · have h1 : isDecDigit '-' = false := by decide
    simp [isPlainIdent, ha, startsWithDigit, looksNumeric, reservedWords, h0, h1]

theorem isPlainIdent_free {w : Str} (hp : isPlainIdent w = true) : w ∉ reserved := by
  intro hr
  unfold isPlainIdent at hp
  simp only [Bool.and_eq_true, Bool.not_eq_true'] at hp
  have : reservedWords.contains w = true := by
    simp only [List.contains_eq_mem, decide_eq_true_eq]
    simp only [reserved, List.mem_cons, List.not_mem_nil, or_false] at hr
    simp only [reservedWords, List.mem_cons, List.not_mem_nil, or_false]
    rcases hr with h | h | h | h | h | h <;> simp [h]
  rw [this] at hp
  cases hp.2

theorem strText_ident {t w : Str} (h : StrText t w) (hid : ∀ c ∈ t, IdentChar c) : Bare t := by
  cases h with
  | bare h => exact h
  | quoted => exact absurd (hid '"' (by simp)) (by decide)
  | multi => exact absurd (hid '"' (by simp)) (by decide)
  | raw => exact absurd (hid '"' (by simp)) (by decide)
  | rawMulti => exact absurd (hid '"' (by simp)) (by decide)

/-- A line break in lines without line breaks stands between two lines. -/
theorem two_lines {ls : List Str} (hn : ∃ c ∈ joinLines ls, Newline c) (h : ∀ l ∈ ls, ∀ c ∈ l, ¬ Newline c) : 2 ≤ ls.length := by
  obtain ⟨c, hc, hn⟩ := hn
  match ls with
  | [] => simp [joinLines] at hc
  | [l] => rw [joinLines_one] at hc; exact absurd hn (h l (by simp) c hc)
  | l :: l2 :: ls => simp

theorem mem_line {ls : List Str} {l : Str} {c : Char} (hl : l ∈ ls) (hc : c ∈ l) : c ∈ joinLines ls := by
  obtain ⟨a, b, rfl⟩ := List.append_of_mem hc
  obtain ⟨x, y, e⟩ := contains_line (p := [c]) hl ⟨a, b, by simp⟩
  rw [e]
  simp

theorem v1Lines_noNewline : ∀ {cs vs : List Str}, V1Lines cs vs → ∀ l ∈ cs, ∀ c ∈ l, ¬ Newline c
  | _, _, .nil => by simp
  | _, _, .cons h ht => by
    have line : ∀ {l v : Str}, V1Line l v → ∀ c ∈ l, ¬ Newline c := by
      intro l v h
      induction h with
      | nil => simp
      | plain _ _ h3 _ _ ih =>
        intro x hx
        rcases List.mem_cons.mp hx with rfl | hx
        · exact h3
        · exact ih x hx
      | escape h1 _ _ ih =>
        intro x hx
        simp only [List.mem_cons] at hx
        rcases hx with rfl | rfl | hx
        · decide
        · exact fun hn => v1Escapes_notBlank h1 (Or.inr hn)
        · exact ih x hx
      | unicode h1 h2 h3 h4 _ ih =>
        have := V1Safe.noNewline (.unicode h1 h2 h3 h4 .nil)
        intro x hx
        simp only [List.mem_cons, List.mem_append] at hx this
        rcases hx with h | h | h | h | h | h
        · exact this x (by simp [h])
        · exact this x (by simp [h])
        · exact this x (by simp [h])
        · exact this x (by simp [h])
        · exact this x (by simp [h])
        · exact ih x h
    intro l hl
    rcases List.mem_cons.mp hl with rfl | hl
    · exact line h
    · exact v1Lines_noNewline ht l hl

/-- **No other v1 strings survive the conversion.** -/
theorem v1_text_good {t w : Str} (h : V1Str t w) (hs : StrText (v2StringRepr w t) w) : V1Good t w := by
  by_cases hp : isPlainIdent w = true
  · have e : v2StringRepr w t = w := by simp [v2StringRepr, hp]
    rw [e] at hs
    have hid := isPlainIdent_ident hp
    have hb := strText_ident hs hid
    exact .bare h hb (isPlainIdent_free hp)
  have hne : w ≠ [] := by
    rintro rfl
    exact hp (by decide)
  have hsp : ¬ SignedPoint w := fun h => hp (signedPoint_plain h)
  have hp : isPlainIdent w = false := by simpa using hp
  cases h with
  | @quoted b _ hq =>
    by_cases hn : ∃ c ∈ b, Newline c
    · obtain ⟨hq1, hq2⟩ := v1Quoted_three hq
      have hq3 : ¬ Contains ('"' :: (b ++ ['"'])) ['"', '"', '"'] := by
        refine three_cons hq2 fun _ q e => ?_
        cases b with
        | nil => cases e
        | cons c b => exact hq1 b (by rw [(List.cons.inj e).1])
      rw [v2_many_lines hp hn hq3] at hs
      obtain ⟨pre, ls, h1, hm, rfl⟩ := strText_three hs
      obtain ⟨_, _, hk⟩ := multi_v1 h1 hm rfl hq
      obtain ⟨cs, hne, rfl, hl, hv⟩ := hk rfl
      refine .lines hl (two_lines hn ?_) hv
      exact v1Lines_noNewline hl
    · have hn : ∀ c ∈ b, ¬ Newline c := fun c hc h => hn ⟨c, hc, h⟩
      rw [v2_one_line hp hn] at hs
      obtain ⟨x, ex⟩ := unescapeSlash_last _ (t := b) (Nat.le_refl _)
      rw [ex] at hs
      have hx : ∀ c ∈ x, ¬ Newline c := by
        intro c hc hnl
        have := unescapeSlash_mem _ (t := b ++ ['"']) (Nat.le_refl _) c (by rw [ex]; simp [hc])
        rcases List.mem_append.mp this with h | h
        · exact hn c h hnl
        · rw [List.mem_singleton.mp h] at hnl
          exact absurd hnl (by decide)
      exact .quoted (safe_of_unescape hq ex (strText_quote hs hx)) hne hsp
  | @raw n _ hc =>
    cases n with
    | zero =>
      have hnq : ∀ c ∈ w, c ≠ '"' := by
        rintro c hm rfl
        obtain ⟨a, b, rfl⟩ := List.append_of_mem hm
        exact hc ⟨a, b, by simp [hashes]⟩
      have ez : 'r' :: (hashes 0 ++ '"' :: (w ++ '"' :: hashes 0)) = 'r' :: '"' :: (w ++ ['"']) := rfl
      rw [ez] at hs ⊢
      rw [v2_r (x := '"' :: (w ++ ['"'])) rfl (Or.inl rfl) ⟨'"' :: w, '"', rfl, Or.inl rfl⟩] at hs
      by_cases hn : ∃ c ∈ w, Newline c
      · have hq3 : ¬ Contains ('"' :: (w ++ ['"'])) ['"', '"', '"'] := by
          refine three_cons (three_plain hnq ?_) fun _ q e => ?_
          · rintro ⟨a, b, e⟩
            have := congrArg List.length e
            simp at this
            omega
          · cases w with
            | nil => cases e
            | cons c b => exact hnq c (by simp) (List.cons.inj e).1
        rw [v2_many_lines hp hn hq3] at hs
        obtain ⟨pre, ls, h1, hm, e⟩ := strText_three hs
        have hls : ls ≠ [] := by
          rintro rfl
          exact hne (by rw [e]; rfl)
        have hlen := (multi_length hm).2 (by rw [← joinLines_length hls, ← e]; simp)
        subst e
        exact .raw0Lines (fun l hl c hc => ⟨((hlen l hl).2 c hc).1, hnq c (mem_line hl hc), ((hlen l hl).2 c hc).2⟩)
          (two_lines hn fun l hl c hc => ((hlen l hl).2 c hc).2.1) fun l hl => (hlen l hl).1
      · have hn : ∀ c ∈ w, ¬ Newline c := fun c hc h => hn ⟨c, hc, h⟩
        rw [v2_one_line hp hn] at hs
        obtain ⟨x, ex⟩ := unescapeSlash_last _ (t := w) (Nat.le_refl _)
        rw [ex] at hs
        have hx : ∀ c ∈ x, ¬ Newline c := by
          intro c hc hnl
          have := unescapeSlash_mem _ (t := w ++ ['"']) (Nat.le_refl _) c (by rw [ex]; simp [hc])
          rcases List.mem_append.mp this with h | h
          · exact hn c h hnl
          · rw [List.mem_singleton.mp h] at hnl
            exact absurd hnl (by decide)
        have hq := strText_quote hs hx
        have hl := unescapeSlash_length _ (t := w ++ ['"']) (Nat.le_refl _)
        rw [ex] at hl
        simp only [List.length_append, List.length_cons, List.length_nil] at hl
        obtain ⟨h1, h2⟩ := quoted_length hq
        obtain ⟨rfl, h2⟩ := h2 (by omega)
        exact .raw0 h2 hne hsp
    | succ n =>
      rw [v2_r (x := hashes (n + 1) ++ '"' :: (w ++ '"' :: hashes (n + 1))) (c := '#')
        (q := hashes n ++ '"' :: (w ++ '"' :: hashes (n + 1))) rfl (Or.inr rfl) (hashes_last _)] at hs
      by_cases hn : ∃ c ∈ w, Newline c
      · have unchanged : ∀ {x : Str}, StrText (hashes (n + 1) ++ '"' :: (x ++ '"' :: hashes (n + 1))) w → (∃ c ∈ x, Newline c) →
            ∃ nl pre t ls, NewlineSeq nl t ∧ RawMulti (n + 1) pre t ls ∧ w = joinLines ls ∧ x = '"' :: '"' :: (nl ++ (t ++ ['"', '"'])) := by
          intro x h ⟨c, hc, hn⟩
          rcases strText_hash h with ⟨hr, _⟩ | ⟨nl, pre, t, ls, h0, _, h, e1, e2⟩
          · exact absurd hn (hr.1 c hc).1
          · exact ⟨nl, pre, t, ls, h0, h, e1, e2⟩
        rcases v2_rawMany (n := n) hp hn with ⟨_, e⟩ | ⟨hq, e⟩
        · exfalso
          rw [e] at hs
          obtain ⟨nl, pre, t, ls, h0, hm, e1, e2⟩ := unchanged hs hn
          have hls : ls ≠ [] := by
            rintro rfl
            exact hne (by rw [e1]; rfl)
          have h1 := (rawMulti_length hm).1
          rw [← joinLines_length hls, ← e1] at h1
          have h2 := congrArg List.length e2
          simp only [List.length_cons, List.length_append, List.length_nil] at h2
          omega
        · rw [e] at hs
          have e3 : hashes (n + 1) ++ '"' :: '"' :: '"' :: ('\n' :: ((w ++ ['\n']) ++ '"' :: '"' :: '"' :: hashes (n + 1))) =
              hashes (n + 1) ++ '"' :: (('"' :: '"' :: '\n' :: (w ++ ['\n', '"', '"'])) ++ '"' :: hashes (n + 1)) := by simp
          rw [e3] at hs
          obtain ⟨nl, pre, t, ls, h0, hm, e1, e2⟩ := unchanged hs ⟨'\n', by simp, by decide⟩
          have et : t = w ++ ['\n'] := by
            simp only [List.cons.injEq, true_and] at e2
            rcases h0 with rfl | ⟨c, rfl, _⟩
            · cases (List.cons.inj e2).1
            · have e2 : (w ++ ['\n']) ++ ['"', '"'] = t ++ ['"', '"'] := by simpa using (List.cons.inj e2).2
              exact (List.append_cancel_right e2).symm
          subst et
          have hls : ls ≠ [] := by
            rintro rfl
            exact hne (by rw [e1]; rfl)
          have hlen := (rawMulti_length hm).2 (by rw [← joinLines_length hls, ← e1]; simp)
          subst e1
          refine .rawLines (fun l hl => (hlen l hl).2) hc ?_ (two_lines hn fun l hl c hc => ((hlen l hl).2 c hc).1) fun l hl => (hlen l hl).1
          rintro ⟨a, b, e⟩
          refine hq ⟨hashes (n + 1) ++ a, b ++ hashes (n + 1), ?_⟩
          have := congrArg (fun x => hashes (n + 1) ++ (x ++ hashes (n + 1))) e
          simpa using this
      · rw [v2_raw hp hn] at hs
        rcases strText_hash hs with ⟨hr, _⟩ | ⟨nl, pre, t, ls, h0, _, h, e1, e2⟩
        · exact .raw hr hne hsp
        · exfalso
          rcases h0 with rfl | ⟨c, rfl, hnl, _⟩
          · exact hn ⟨'\n', by rw [e2]; simp, by decide⟩
          · exact hn ⟨c, by rw [e2]; simp, hnl⟩

end Kdl
