import Verif.Props.Format
/-
`autoformat_trailing` without assumptions on carriage returns, and when it
settles after one run (used for C13).
-/

namespace Kdl
open Spec

/-- The text without the carriage returns that stand right before a line feed. -/
def dropCr : Str → Str
  | [] => []
  | c :: s => if c = '\r' ∧ s.head? = some '\n' then dropCr s else c :: dropCr s

theorem dropCr_line (l r : Str) (h : '\n' ∉ l) : dropCr (l ++ '\n' :: r) = stripCr l ++ '\n' :: dropCr r := by
  induction l with
  | nil => simp [dropCr, stripCr]
  | cons c l ih =>
    have hc : c ≠ '\n' := fun e => h (by simp [e])
    have hl : '\n' ∉ l := fun e => h (by simp [e])
    rw [List.cons_append, dropCr, ih hl]
    cases l with
    | nil =>
      by_cases e : c = '\r'
      · subst e; simp [stripCr]
      · simp [e, stripCr]
    | cons c' l =>
      have hc' : c' ≠ '\n' := fun e => hl (by simp [e])
      rw [if_neg (by simp [hc'])]
      have : stripCr (c :: c' :: l) = c :: stripCr (c' :: l) := by
        obtain ⟨m, x, hm⟩ : ∃ m x, c' :: l = m ++ [x] := by
          rcases List.eq_nil_or_concat (c' :: l) with h | ⟨m, x, h⟩
          · cases h
          · exact ⟨m, x, by rw [h, List.concat_eq_append]⟩
        rw [hm]
        unfold stripCr
        simp only [List.reverse_cons, List.reverse_append, List.reverse_nil, List.nil_append, List.singleton_append, List.cons_append]
        by_cases e : x = '\r'
        · subst e; simp
        · split
          · rename_i h'; exact absurd (List.cons.inj h').1 e
          · split
            · rename_i h'; exact absurd (List.cons.inj h').1 e
            · rfl
      rw [this]; rfl

theorem dropCr_last (l : Str) (h : '\n' ∉ l) : dropCr l = l := by
  induction l with
  | nil => rfl
  | cons c l ih =>
    have hl : '\n' ∉ l := fun e => h (by simp [e])
    rw [dropCr, ih hl, if_neg]
    rintro ⟨_, h2⟩
    cases l with
    | nil => cases h2
    | cons d l => cases h2; exact hl (by simp)

theorem writeLines_dropCr (d : Str) (hne : d ≠ []) (hlast : ∀ r, d ≠ r ++ ['\n']) :
    writeLines (lines d) = dropCr d ++ ['\n'] := by
  induction hn : d.length using Nat.strongRecOn generalizing d with
  | ind n ih =>
    rcases first_line d with h | ⟨l, r, rfl, hl⟩
    · rw [lines_last d h hne, dropCr_last d h]; simp [writeLines]
    · have hr : r ≠ [] := by rintro rfl; exact hlast l rfl
      have hrl : ∀ q, r ≠ q ++ ['\n'] := by
        rintro q rfl; exact hlast (l ++ '\n' :: q) (by simp)
      have hlen : r.length < n := by rw [← hn]; simp; omega
      rw [lines_line l r hl, writeLines, ih r.length hlen r hr hrl rfl, dropCr_line l r hl]
      simp

theorem dropCr_head {s : Str} (h : s.head? ≠ some '\n') :
    (dropCr s).head? = some '\n' ↔ ∃ r, s = '\r' :: '\n' :: r := by
  cases s with
  | nil => simp [dropCr]
  | cons c s =>
    have hc : c ≠ '\n' := fun e => h (by simp [e])
    rw [dropCr]
    by_cases e : c = '\r' ∧ s.head? = some '\n'
    · rw [if_pos e]
      obtain ⟨rfl, e2⟩ := e
      cases s with
      | nil => cases e2
      | cons d s => cases e2; simp [dropCr]
    · rw [if_neg e]
      constructor
      · intro h'; exact absurd (by simpa using h') hc
      · rintro ⟨r, e'⟩
        cases e'
        exact absurd ⟨rfl, rfl⟩ e

theorem dropCr_infix (x : Str) : ['\r', '\n'] <:+: dropCr x ↔ ['\r', '\r', '\n'] <:+: x := by
  induction x with
  | nil => simp [dropCr]
  | cons c s ih =>
    rw [dropCr]
    by_cases e : c = '\r' ∧ s.head? = some '\n'
    · rw [if_pos e, ih, List.infix_cons_iff]
      constructor
      · exact Or.inr
      · rintro (⟨q, hq⟩ | h)
        · cases hq; exact absurd e.2 (by simp)
        · exact h
    · rw [if_neg e, List.infix_cons_iff, List.infix_cons_iff, ih]
      refine or_congr_left ?_
      constructor
      · rintro ⟨q, hq⟩
        obtain ⟨rfl, hq2⟩ := List.cons.inj (show '\r' :: '\n' :: q = c :: dropCr s from hq)
        have h1 : s.head? ≠ some '\n' := fun h' => e ⟨rfl, h'⟩
        obtain ⟨r, rfl⟩ := (dropCr_head h1).mp (by rw [show dropCr s = '\n' :: q from hq2.symm]; rfl)
        exact ⟨r, rfl⟩
      · rintro ⟨q, hq⟩
        cases hq
        exact ⟨dropCr q, by simp [dropCr]⟩

theorem dropCr_length (x : Str) : (dropCr x).length ≤ x.length := by
  induction x with
  | nil => simp [dropCr]
  | cons c s ih => rw [dropCr]; split <;> simp <;> omega

theorem dropCr_eq_self (x : Str) : dropCr x = x ↔ ¬ ['\r', '\n'] <:+: x := by
  induction x with
  | nil => simp [dropCr]
  | cons c s ih =>
    rw [dropCr]
    by_cases e : c = '\r' ∧ s.head? = some '\n'
    · rw [if_pos e]
      constructor
      · intro h
        have := dropCr_length s
        rw [h] at this
        simp at this
        omega
      · intro h
        refine absurd ?_ h
        obtain ⟨rfl, e2⟩ := e
        cases s with
        | nil => cases e2
        | cons d s => cases e2; exact ⟨[], s, rfl⟩
    · rw [if_neg e, List.infix_cons_iff]
      simp only [List.cons.injEq, true_and, ih, not_or]
      constructor
      · intro h
        refine ⟨?_, h⟩
        rintro ⟨q, hq⟩
        cases hq
        exact e ⟨rfl, rfl⟩
      · exact And.right

theorem dropCr_idem (x : Str) : dropCr (dropCr x) = dropCr x ↔ ¬ ['\r', '\r', '\n'] <:+: x := by
  rw [dropCr_eq_self, dropCr_infix]

theorem dropCr_snoc (x : Str) {c : Char} (h : c ≠ '\n') : dropCr (x ++ [c]) = dropCr x ++ [c] := by
  induction x with
  | nil => simp [dropCr]
  | cons d x ih =>
    rw [List.cons_append, dropCr, dropCr, ih]
    cases x with
    | nil => simp [h]
    | cons e x =>
      by_cases h' : d = '\r' ∧ e = '\n'
      · simp [h'.1, h'.2]
      · simp [h']

theorem dropCr_trimmed {x : Str} (h : Trimmed x) : Trimmed (dropCr x) ∧ (dropCr x = [] ↔ x = []) := by
  rcases h with rfl | ⟨⟨c, r, h1, hc⟩, ⟨d, q, h2, hd⟩⟩
  · exact ⟨Or.inl rfl, by simp [dropCr]⟩
  · have e1 : dropCr x = c :: dropCr r := by
      rw [h1, dropCr, if_neg]
      rintro ⟨rfl, _⟩
      exact absurd hc (by decide)
    have e2 : dropCr x = dropCr q ++ [d] := by
      rw [h2]
      refine dropCr_snoc q ?_
      rintro rfl
      exact absurd hd (by decide)
    refine ⟨Or.inr ⟨⟨c, _, e1, hc⟩, ⟨d, _, e2, hd⟩⟩, ?_⟩
    rw [e1, h1]; simp

/-- Closed form of `autoformat_trailing`. -/
theorem autoformatTrailing_dropCr (nc : Bool) (s : Str) :
    autoformatTrailing nc s =
      if nc = true ∨ trim s = [] then [] else ' ' :: dropCr (trim s) ++ ['\n'] := by
  unfold autoformatTrailing
  by_cases hs : s = []
  · subst hs; simp [show trim [] = [] from rfl]
  · have hse : s.isEmpty = false := by simp [hs]
    simp only [hse, Bool.false_eq_true, if_false]
    by_cases ht : trim s = []
    · simp [ht]
    · cases nc with
      | true => simp
      | false =>
        have : (trim s).isEmpty = false := by simp [ht]
        simp only [this, trimStart_trim, if_true, ht, Bool.not_false, Bool.and_self, or_self,
          Bool.false_eq_true, if_false]
        rw [writeLines_dropCr (trim s) ht]
        · rfl
        · intro r hr
          rcases trim_trimmed s with h | ⟨_, ⟨d, q, h2, hd⟩⟩
          · exact ht h
          · rw [h2] at hr
            have := (List.append_inj_right' hr rfl)
            simp only [List.cons.injEq, and_true] at this
            rw [this] at hd; simp [isWs_nl] at hd

theorem trim_wrapped {x : Str} (h : Trimmed x) {w : Str} (hw : AllWs w) : trim (' ' :: x ++ w) = x := by
  have := trim_surround [' '] x w (by decide) hw
  rw [trim_of_trimmed h] at this
  simpa using this

theorem autoformatTrailing_twice (nc : Bool) (s w : Str) (hw : AllWs w) :
    autoformatTrailing nc (autoformatTrailing nc s ++ w) =
      if nc = true ∨ trim s = [] then [] else ' ' :: dropCr (dropCr (trim s)) ++ ['\n'] := by
  rw [autoformatTrailing_dropCr nc s]
  by_cases h : nc = true ∨ trim s = []
  · rw [if_pos h, if_pos h, List.nil_append, autoformatTrailing_dropCr nc w, if_pos (Or.inr (trim_ws_all hw))]
  · rw [if_neg h, if_neg h]
    have ht := dropCr_trimmed (trim_trimmed s)
    have htr : trim (' ' :: dropCr (trim s) ++ ['\n'] ++ w) = dropCr (trim s) := by
      have := trim_wrapped ht.1 (w := ['\n'] ++ w) (AllWs.append (by decide) hw)
      simpa using this
    rw [autoformatTrailing_dropCr nc _, htr, if_neg (by rw [ht.2]; exact h)]

/-- The trailing text settles after one run exactly when comments are removed or
the trimmed text has no doubled carriage return. -/
theorem autoformatTrailing_settles (nc : Bool) (s w : Str) (hw : AllWs w) :
    autoformatTrailing nc (autoformatTrailing nc s ++ w) = autoformatTrailing nc s ↔
      nc = true ∨ ¬ ['\r', '\r', '\n'] <:+: trim s := by
  rw [autoformatTrailing_twice nc s w hw, autoformatTrailing_dropCr nc s]
  by_cases h : nc = true ∨ trim s = []
  · rw [if_pos h, if_pos h]
    refine iff_of_true rfl ?_
    rcases h with h | h
    · exact Or.inl h
    · rw [h]; exact Or.inr (by simp)
  · rw [if_neg h, if_neg h]
    rw [not_or] at h
    rw [or_iff_right h.1, ← dropCr_idem]
    simp

theorem autoformatNodeTrailing_dropCr (c : FormatConfig) (t : Str) :
    autoformatNodeTrailing c t =
      if c.noComments = true ∨ trim t = [] then [] else ' ' :: dropCr (trim t) := by
  unfold autoformatNodeTrailing
  rw [autoformatTrailing_dropCr]
  by_cases h' : c.noComments = true ∨ trim t = []
  · simp [h', show trim [] = [] from rfl]
  · rw [if_neg h', if_neg h']
    have ht := dropCr_trimmed (trim_trimmed t)
    rw [trim_wrapped ht.1 (by decide)]
    rcases ht.1 with h1 | ⟨⟨ch, r, h1, hc⟩, _⟩
    · exact absurd (Or.inr (ht.2.mp h1)) h'
    · simp [h1, hc]

theorem autoformatNodeTrailing_settles (c : FormatConfig) (t : Str) :
    autoformatNodeTrailing c (autoformatNodeTrailing c t) = autoformatNodeTrailing c t ↔
      c.noComments = true ∨ ¬ ['\r', '\r', '\n'] <:+: trim t := by
  rw [autoformatNodeTrailing_dropCr c t]
  by_cases h : c.noComments = true ∨ trim t = []
  · rw [if_pos h, autoformatNodeTrailing_dropCr, if_pos (Or.inr (by rfl))]
    refine iff_of_true rfl ?_
    rcases h with h | h
    · exact Or.inl h
    · rw [h]; exact Or.inr (by simp)
  · have ht := dropCr_trimmed (trim_trimmed t)
    have htr : trim (' ' :: dropCr (trim t)) = dropCr (trim t) := by
      simpa using trim_wrapped ht.1 AllWs.nil
    rw [if_neg h, autoformatNodeTrailing_dropCr, htr, if_neg (by rw [ht.2]; exact h)]
    rw [not_or] at h
    rw [or_iff_right h.1, ← dropCr_idem]
    simp

/-- A white-space text inside the trimmed text, seen from the whole text. -/
theorem infix_trim {m t : Str} (hm : AllWs m) (hne : m ≠ []) : m <:+: trim t ↔
    ∃ a b, t = a ++ m ++ b ∧ (∃ c ∈ a, isWhitespace c = false) ∧ ∃ c ∈ b, isWhitespace c = false := by
  constructor
  · rintro ⟨p, q, e⟩
    obtain ⟨w, w', hw, hw', hs, htr⟩ := trim_decomp t
    rcases htr with h0 | ⟨⟨c, r, h1, hc⟩, ⟨d, u, h2, hd⟩⟩
    · rw [h0] at e
      have := congrArg List.length e
      cases m with
      | nil => exact absurd rfl hne
      | cons x m => simp at this
    refine ⟨w ++ p, q ++ w', ?_, ?_, ?_⟩
    · rw [hs, ← e]; simp
    · refine ⟨c, ?_, hc⟩
      rw [← e] at h1
      cases p with
      | nil =>
        cases m with
        | nil => exact absurd rfl hne
        | cons x m =>
          have := (List.cons.inj h1).1
          rw [← this] at hc
          exact absurd (hm x (by simp)) (by simp [hc])
      | cons x p => rw [← (List.cons.inj h1).1]; simp
    · refine ⟨d, ?_, hd⟩
      rw [← e] at h2
      rcases List.eq_nil_or_concat q with rfl | ⟨q', x, rfl⟩
      · rcases List.eq_nil_or_concat m with rfl | ⟨m', x, rfl⟩
        · exact absurd rfl hne
        · rw [List.append_nil, List.concat_eq_append, ← List.append_assoc] at h2
          have := List.append_inj_right' h2 rfl
          simp only [List.cons.injEq, and_true] at this
          rw [← this] at hd
          exact absurd (hm x (by simp)) (by simp [hd])
      · rw [List.concat_eq_append, ← List.append_assoc] at h2
        have := List.append_inj_right' h2 rfl
        simp only [List.cons.injEq, and_true] at this
        rw [← this]; simp
  · rintro ⟨a, b, rfl, ⟨c, hc, hcw⟩, ⟨d, hd, hdw⟩⟩
    obtain ⟨w, hw1, hw2, hw3⟩ := dropWhile_decomp isWhitespace a
    obtain ⟨v, hv1, hv2, hv3⟩ := dropWhile_decomp isWhitespace b.reverse
    generalize List.dropWhile isWhitespace a = a' at *
    generalize List.dropWhile isWhitespace b.reverse = b' at *
    have hb : b = b'.reverse ++ v.reverse := by
      rw [← List.reverse_append, ← hv1, List.reverse_reverse]
    rcases hw3 with rfl | ⟨x, a'', rfl, hx⟩
    · rw [hw1, List.append_nil] at hc
      exact absurd (hw2 c hc) (by simp [hcw])
    rcases hv3 with rfl | ⟨y, b'', rfl, hy⟩
    · rw [hb, List.reverse_nil, List.nil_append] at hd
      exact absurd (hv2 d (List.mem_reverse.mp hd)) (by simp [hdw])
    have hin : Trimmed ((x :: a'') ++ m ++ (y :: b'').reverse) :=
      Or.inr ⟨⟨x, _, by simp; rfl, hx⟩, ⟨y, (x :: a'') ++ m ++ b''.reverse, by simp, hy⟩⟩
    have e : a ++ m ++ b = w ++ ((x :: a'') ++ m ++ (y :: b'').reverse) ++ v.reverse := by
      rw [hw1, hb]; simp
    rw [e, trim_surround _ _ _ hw2 (show AllWs v from hv2).reverse, trim_of_trimmed hin]
    exact ⟨_, _, rfl⟩

end Kdl
