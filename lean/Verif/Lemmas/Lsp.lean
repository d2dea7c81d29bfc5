import Verif.Spec.Lsp
/-
Lemmas for the language server: positions.
-/

namespace Kdl.Lsp
open Spec

/-! ### Positions, computed from the left -/

/-- The place between `p` and `q`, for lines that end where `e` says. -/
def place (e : Char → Str → Bool) : Str → Str → Nat × Nat
  | [], _ => (0, 0)
  | c :: p, q =>
    let (l, k) := place e p q
    if e c (p ++ q) then (l + 1, k) else if l = 0 then (0, utf16Size c + k) else (l, k)

theorem utf16_pos (c : Char) : 0 < utf16Size c := by unfold utf16Size; split <;> omega

theorem utf16Len_eq (s : Str) : utf16Len s = (s.map utf16Size).sum := by
  induction s with
  | nil => rfl
  | cons c s ih => simp only [utf16Len, List.map_cons, List.sum_cons, ih, utf16Size]

theorem utf16Len_append (s t : Str) : utf16Len (s ++ t) = utf16Len s + utf16Len t := by
  simp [utf16Len_eq, List.map_append, List.sum_append]

theorem place_append_none {e : Char → Str → Bool} {a p q : Str} (h : ∀ c ∈ a, ∀ t, e c t = false) :
    place e (a ++ p) q = if (place e p q).1 = 0 then (0, utf16Len a + (place e p q).2) else place e p q := by
  induction a with
  | nil =>
    rcases hp : place e p q with ⟨l, k⟩
    by_cases hl : l = 0
    · subst hl; simp [utf16Len, hp]
    · simp [hl, hp]
  | cons c a ih =>
    have hc := h c (by simp)
    simp only [List.cons_append, place, hc]
    rw [ih fun c hc => h c (by simp [hc])]
    rcases hp : place e p q with ⟨l, k⟩
    by_cases hl : l = 0
    · subst hl
      simp [utf16Len, utf16Size, Nat.add_assoc]
    · simp [hl]

theorem place_append_break {e : Char → Str → Bool} {a p q : Str} {c : Char} (h : ∀ c ∈ a, ∀ t, e c t = false) (hc : e c (p ++ q) = true) :
    place e (a ++ c :: p) q = ((place e p q).1 + 1, (place e p q).2) := by
  rw [place_append_none h]
  simp [place, hc]

/-- The order of places is that of the texts in front of them. -/
theorem place_lt {e : Char → Str → Bool} {p t q : Str} (ht : t ≠ []) :
    (place e p (t ++ q)).1 < (place e (p ++ t) q).1 ∨
      ((place e p (t ++ q)).1 = (place e (p ++ t) q).1 ∧ (place e p (t ++ q)).2 < (place e (p ++ t) q).2) := by
  induction p with
  | nil =>
    cases t with
    | nil => exact absurd rfl ht
    | cons c t =>
      have := utf16_pos c
      simp only [List.nil_append, place]
      rcases place e t q with ⟨l, k⟩
      simp only
      split
      · exact Or.inl (by simp)
      · split
        · exact Or.inr ⟨rfl, by show 0 < _; omega⟩
        · exact Or.inl (by show 0 < l; omega)
  | cons c p ih =>
    simp only [List.cons_append, place, List.append_assoc]
    rcases h1 : place e p (t ++ q) with ⟨l, k⟩
    rcases h2 : place e (p ++ t) q with ⟨l', k'⟩
    rw [h1, h2] at ih
    simp only at ih ⊢
    by_cases hb : e c (p ++ (t ++ q)) = true
    · simp only [hb, if_true]
      rcases ih with h | h
      · exact Or.inl (by omega)
      · exact Or.inr ⟨by omega, h.2⟩
    · simp only [hb, Bool.false_eq_true, if_false]
      by_cases hl : l = 0
      · subst hl
        by_cases hl' : l' = 0
        · subst hl'
          simp only [if_true] at ih ⊢
          exact Or.inr ⟨trivial, by omega⟩
        · simp only [if_true, if_neg hl']
          exact Or.inl (by omega)
      · have : l' ≠ 0 := by omega
        simp only [if_neg hl, if_neg this]
        exact ih

/-! ### The functions of the server -/

theorem byteToChar_append (p q : Str) : byteToChar (p ++ q) (utf8Len p) = p.length := by
  induction p with
  | nil =>
    cases q with
    | nil => rfl
    | cons c q =>
      have : 0 < c.utf8Size := Char.utf8Size_pos c
      simp [byteToChar, utf8Len, this]
  | cons c p ih =>
    simp only [List.cons_append, byteToChar, utf8Len, List.map_cons, List.sum_cons, List.length_cons]
    rw [if_neg (by omega), Nat.add_sub_cancel_left]
    rw [utf8Len] at ih
    rw [ih]
    omega

theorem lineEnds_place (p q : Str) : lineEnds (p ++ q) p.length = (place endsLine p q).1 := by
  induction p with
  | nil => cases q <;> rfl
  | cons c p ih =>
    simp only [List.cons_append, List.length_cons, lineEnds, place, ih]
    rcases place endsLine p q with ⟨l, k⟩
    simp only
    split
    · omega
    · split
      · simp_all
      · simp

theorem charToUtf16_length (p q : Str) : charToUtf16 (p ++ q) p.length = utf16Len p := by
  simp [charToUtf16, utf16Len_eq]

theorem column_place (p q : Str) :
    charToUtf16 (p ++ q) (lineToChar (p ++ q) (place endsLine p q).1) + (place endsLine p q).2 = utf16Len p := by
  induction p with
  | nil => simp [place, charToUtf16, lineToChar, utf16Len]
  | cons c p ih =>
    simp only [List.cons_append, place]
    rcases hp : place endsLine p q with ⟨l, k⟩
    rw [hp] at ih
    simp only at ih ⊢
    by_cases hb : endsLine c (p ++ q) = true
    · simp only [hb, if_true, lineToChar, charToUtf16, Nat.add_comm 1, List.take_succ_cons, List.map_cons, List.sum_cons, utf16Len] at ih ⊢
      simp only [utf16Size] at ih ⊢
      omega
    · simp only [hb, Bool.false_eq_true, if_false]
      cases l with
      | zero =>
        simp only [if_true, lineToChar, charToUtf16, List.take_zero, List.map_nil, List.sum_nil, utf16Len, utf16Size] at ih ⊢
        omega
      | succ l =>
        simp only [Nat.add_one_ne_zero, if_false, lineToChar, hb, Bool.false_eq_true]
        simp only [charToUtf16, Nat.add_comm 1, List.take_succ_cons, List.map_cons, List.sum_cons, utf16Len, utf16Size] at ih ⊢
        omega

/-- The position of a place, without the cut to 32 bits. -/
theorem byteToPosition_place (p q : Str) :
    byteToPosition (utf8Len p) (p ++ q) = ⟨(place endsLine p q).1 % 2 ^ 32, (place endsLine p q).2 % 2 ^ 32⟩ := by
  have hk : min (utf8Len p) (utf8Len (p ++ q)) = utf8Len p := by
    rw [Nat.min_eq_left]
    simp [utf8Len, List.map_append, List.sum_append]
  unfold byteToPosition byteToLine
  simp only [hk, byteToChar_append, lineEnds_place, charToUtf16_length]
  have := column_place p q
  rw [← this, Nat.add_sub_cancel_left]

theorem place_bound {e : Char → Str → Bool} (p q : Str) : (place e p q).1 ≤ utf8Len p ∧ (place e p q).2 ≤ utf8Len p := by
  induction p with
  | nil => exact ⟨Nat.zero_le _, Nat.zero_le _⟩
  | cons c p ih =>
    have h1 : 0 < c.utf8Size := Char.utf8Size_pos c
    have h2 : utf16Size c ≤ c.utf8Size := by
      unfold utf16Size
      split
      · omega
      · rename_i h
        have h : 0x10000 ≤ c.val.toNat := Nat.le_of_not_lt h
        unfold Char.utf8Size
        have g1 : ¬ c.val ≤ 0x7F := by
          rw [UInt32.le_iff_toNat_le]
          exact fun h' => absurd (Nat.le_trans h h') (by decide)
        have g2 : ¬ c.val ≤ 0x7FF := by
          rw [UInt32.le_iff_toNat_le]
          exact fun h' => absurd (Nat.le_trans h h') (by decide)
        have g3 : ¬ c.val ≤ 0xFFFF := by
          rw [UInt32.le_iff_toNat_le]
          exact fun h' => absurd (Nat.le_trans h h') (by decide)
        simp [g1, g2, g3]
    simp only [place]
    rcases hp : place e p q with ⟨l, k⟩
    rw [hp] at ih
    simp only [utf8Len, List.map_cons, List.sum_cons] at ih ⊢
    split
    · exact ⟨by simp only; omega, by simp only; omega⟩
    · split
      · exact ⟨by simp only; omega, by simp only; omega⟩
      · exact ⟨by simp only; omega, by simp only; omega⟩

/-- The position of a place in a text of less than 4 GiB. -/
theorem byteToPosition_small {p q : Str} (h : utf8Len p < 2 ^ 32) :
    byteToPosition (utf8Len p) (p ++ q) = ⟨(place endsLine p q).1, (place endsLine p q).2⟩ := by
  rw [byteToPosition_place]
  obtain ⟨h1, h2⟩ := place_bound (e := endsLine) p q
  rw [Nat.mod_eq_of_lt (by omega), Nat.mod_eq_of_lt (by omega)]

/-! ### The specification -/

/-- Whether a character ends a line, with the text that follows it. -/
def Ends (brk : Char → Prop) (e : Char → Str → Bool) : Prop :=
  ∀ c t, e c t = true ↔ brk c ∧ (c = '\r' → ∀ u, t ≠ '\n' :: u)

theorem Ends.none {brk : Char → Prop} {e : Char → Str → Bool} (he : Ends brk e) {a : Str} (h : ∀ c ∈ a, ¬ brk c) :
    ∀ c ∈ a, ∀ t, e c t = false := by
  intro c hc t
  cases hx : e c t with
  | false => rfl
  | true => exact absurd ((he c t).mp hx).1 (h c hc)

theorem place_of {brk : Char → Prop} {e : Char → Str → Bool} (he : Ends brk e) (hn : brk '\n') {p q : Str} {l k : Nat}
    (h : PlaceIn brk p q l k) : place e p q = (l, k) := by
  induction h with
  | @here p q h =>
    have := place_append_none (e := e) (p := []) (q := q) (he.none h)
    simpa [place] using this
  | @inside p q h =>
    rw [place_append_none (he.none h)]
    have : e '\r' ('\n' :: q) = false := by
      cases hx : e '\r' ('\n' :: q) with
      | false => rfl
      | true => exact absurd rfl (((he _ _).mp hx).2 rfl q)
    simp [place, this, utf16Size]
  | @crlf a p q l k h hp ih =>
    have h1 : e '\r' ('\n' :: (p ++ q)) = false := by
      cases hx : e '\r' ('\n' :: (p ++ q)) with
      | false => rfl
      | true => exact absurd rfl (((he _ _).mp hx).2 rfl (p ++ q))
    have h2 : e '\n' (p ++ q) = true := (he _ _).mpr ⟨hn, by intro h; exact absurd h (by decide)⟩
    rw [place_append_none (he.none h)]
    simp [place, h1, h2, ih]
  | @single a p q c l k h hc hr hp ih =>
    rw [place_append_break (he.none h) ((he _ _).mpr ⟨hc, hr⟩), ih]

/-- A character that does not end a line in front. -/
theorem placeIn_cons {brk : Char → Prop} {c : Char} (hc : ¬ brk c) {p q : Str} {l k : Nat} (h : PlaceIn brk p q l k) :
    PlaceIn brk (c :: p) q l (if l = 0 then utf16Size c + k else k) := by
  have hh : ∀ {a : Str}, (∀ x ∈ a, ¬ brk x) → ∀ x ∈ c :: a, ¬ brk x := by
    intro a h x hx
    rcases List.mem_cons.mp hx with rfl | hx
    · exact hc
    · exact h x hx
  cases h with
  | here h => exact .here (p := c :: p) (hh h)
  | @inside p q h =>
    have := PlaceIn.inside (p := c :: p) (q := q) (hh h)
    simpa [utf16Len, utf16Size, Nat.add_assoc] using this
  | @crlf a p q l k h hp => exact .crlf (a := c :: a) (hh h) hp
  | @single a p q d l k h hd hr hp => exact .single (a := c :: a) (hh h) hd hr hp

theorem placeIn_place {brk : Char → Prop} {e : Char → Str → Bool} (he : Ends brk e) (hn : brk '\n') (hr : brk '\r') :
    ∀ (n : Nat) (p q : Str), p.length ≤ n → PlaceIn brk p q (place e p q).1 (place e p q).2
  | _, [], q, _ => .here (p := []) (by simp)
  | 0, c :: p, q, h => by simp at h
  | n + 1, c :: p, q, h => by
    have ih := placeIn_place he hn hr n p q (by simp at h; omega)
    simp only [place]
    rcases hp : place e p q with ⟨l, k⟩
    rw [hp] at ih
    simp only at ih ⊢
    by_cases hb : e c (p ++ q) = true
    · obtain ⟨h1, h2⟩ := (he _ _).mp hb
      simp only [hb, if_true]
      exact .single (a := []) (by simp) h1 h2 ih
    · simp only [hb, Bool.false_eq_true, if_false]
      by_cases hc : brk c
      · -- a carriage return in front of a line feed
        have hx : c = '\r' ∧ ∃ u, p ++ q = '\n' :: u := by
          refine Classical.byContradiction fun hx => ?_
          refine hb ((he _ _).mpr ⟨hc, ?_⟩)
          intro h u hu
          exact hx ⟨h, u, hu⟩
        obtain ⟨rfl, u, hu⟩ := hx
        cases p with
        | nil =>
          cases hp
          have hu : q = '\n' :: u := hu
          subst hu
          exact .inside (p := []) (by simp)
        | cons d p =>
          obtain ⟨rfl, rfl⟩ := List.cons.inj hu
          have ih' := placeIn_place he hn hr n p q (by simp at h; omega)
          have : e '\n' (p ++ q) = true := (he _ _).mpr ⟨hn, by intro h; exact absurd h (by decide)⟩
          simp only [place, this, if_true] at hp
          cases hp
          exact .crlf (a := []) (by simp) ih'
      · have := placeIn_cons hc ih
        by_cases hl : l = 0
        · subst hl
          exact this
        · rw [if_neg hl] at this ⊢
          exact this

/-- The line ends of `ropey`. -/
theorem endsLine_ends : Ends (fun c => LspBreak c ∨ OtherBreak c) endsLine := by
  intro c t
  simp only [endsLine, Bool.or_eq_true, Bool.and_eq_true, beq_iff_eq, bne_iff_ne, LspBreak, OtherBreak]
  constructor
  · rintro ((((((h | h) | h) | h) | h) | h) | h)
    all_goals first
      | (subst h; exact ⟨by simp, by intro h; exact absurd h (by decide)⟩)
      | exact ⟨Or.inl (Or.inr h.1), fun _ u hu => h.2 (by rw [hu]; rfl)⟩
  · rintro ⟨(h | h) | h, hn⟩
    · simp [h]
    · refine Or.inl (Or.inl (Or.inl (Or.inl (Or.inl (Or.inr ⟨h, ?_⟩)))))
      cases t with
      | nil => simp
      | cons d t =>
        simp only [List.head?_cons, ne_eq, Option.some.injEq]
        rintro rfl
        exact hn h t rfl
    · rcases h with h | h | h | h | h <;> simp [h]

/-- The line ends of LSP. -/
def lspEnds (c : Char) (t : Str) : Bool := c == '\n' || (c == '\r' && t.head? != some '\n')

theorem lspEnds_ends : Ends LspBreak lspEnds := by
  intro c t
  simp only [lspEnds, Bool.or_eq_true, Bool.and_eq_true, beq_iff_eq, bne_iff_ne, LspBreak]
  constructor
  · rintro (h | h)
    · subst h; exact ⟨by simp, by intro h; exact absurd h (by decide)⟩
    · exact ⟨Or.inr h.1, fun _ u hu => h.2 (by rw [hu]; rfl)⟩
  · rintro ⟨h | h, hn⟩
    · simp [h]
    · refine Or.inr ⟨h, ?_⟩
      cases t with
      | nil => simp
      | cons d t =>
        simp only [List.head?_cons, ne_eq, Option.some.injEq]
        rintro rfl
        exact hn h t rfl

theorem endsLine_or (c : Char) (t : Str) : endsLine c t = true ↔ lspEnds c t = true ∨ OtherBreak c := by
  simp only [endsLine, lspEnds, Bool.or_eq_true, Bool.and_eq_true, beq_iff_eq, OtherBreak, or_assoc]

theorem lspEnds_not_other {c : Char} {t : Str} (h : lspEnds c t = true) : ¬ OtherBreak c := by
  have := ((lspEnds_ends c t).mp h).1
  rintro (h | h | h | h | h) <;> subst h <;> rcases this with h | h <;> exact absurd h (by decide)

/-- Lines are counted alike exactly if none of the other line ends is in front. -/
theorem place_other (p q : Str) : ((place lspEnds p q).1 ≤ (place endsLine p q).1) ∧
    ((place endsLine p q).1 = (place lspEnds p q).1 ↔ ∀ c ∈ p, ¬ OtherBreak c) ∧
    ((∀ c ∈ p, ¬ OtherBreak c) → place endsLine p q = place lspEnds p q) := by
  induction p with
  | nil => simp [place]
  | cons c p ih =>
    simp only [place]
    rcases h1 : place lspEnds p q with ⟨l, k⟩
    rcases h2 : place endsLine p q with ⟨l', k'⟩
    rw [h1, h2] at ih
    simp only [Prod.mk.injEq, List.mem_cons, forall_eq_or_imp] at ih ⊢
    obtain ⟨i1, i2, i3⟩ := ih
    by_cases hb : lspEnds c (p ++ q) = true
    · have hb' := (endsLine_or c (p ++ q)).mpr (Or.inl hb)
      have ho := lspEnds_not_other hb
      simp only [hb, hb', if_true, ho, not_false_eq_true, true_and]
      refine ⟨by omega, by rw [← i2]; omega, fun h => ?_⟩
      obtain ⟨rfl, rfl⟩ := i3 h
      rfl
    · by_cases ho : OtherBreak c
      · have hb' := (endsLine_or c (p ++ q)).mpr (Or.inr ho)
        simp only [hb, hb', if_true, Bool.false_eq_true, if_false, ho, not_true_eq_false, false_and, iff_false, false_imp_iff, and_true]
        split
        · simp
        · exact ⟨by simp only; omega, by omega⟩
      · have hb' : ¬ endsLine c (p ++ q) = true := fun h => ((endsLine_or _ _).mp h).elim hb ho
        simp only [hb, hb', Bool.false_eq_true, if_false, ho, not_false_eq_true, true_and]
        refine ⟨?_, ?_, ?_⟩
        · by_cases hl : l = 0
          · rw [if_pos hl]
            exact Nat.zero_le _
          · rw [if_neg hl, if_neg (by omega)]
            exact i1
        · rw [← i2]
          by_cases hl : l = 0
          · subst hl
            by_cases hl' : l' = 0
            · subst hl'
              simp
            · rw [if_pos rfl, if_neg hl']
          · rw [if_neg hl, if_neg (by omega)]
        · intro h
          obtain ⟨rfl, rfl⟩ := i3 h
          rfl

end Kdl.Lsp
