import Verif.Model.Fmt
/-
Lemmas about `trim`, `lines` and the text rewriting of the formatter.
-/

namespace Kdl

/-- Only white space. -/
def AllWs (s : Str) : Prop := ∀ c ∈ s, isWhitespace c = true

instance (s : Str) : Decidable (AllWs s) := inferInstanceAs (Decidable (∀ c ∈ s, _))

theorem AllWs.nil : AllWs [] := by simp [AllWs]
theorem AllWs.append {a b : Str} (ha : AllWs a) (hb : AllWs b) : AllWs (a ++ b) := by
  intro c hc; rcases List.mem_append.mp hc with h | h
  · exact ha c h
  · exact hb c h
theorem AllWs.cons {a : Char} {b : Str} (ha : isWhitespace a = true) (hb : AllWs b) :
    AllWs (a :: b) := by
  intro c hc; rcases List.mem_cons.mp hc with rfl | h
  · exact ha
  · exact hb c h
theorem AllWs.reverse {a : Str} (ha : AllWs a) : AllWs a.reverse := by
  intro c hc; exact ha c (List.mem_reverse.mp hc)

theorem dropWhile_append_all {α : Type} (p : α → Bool) (w s : List α) (h : ∀ c ∈ w, p c = true) :
    (w ++ s).dropWhile p = s.dropWhile p := by
  induction w with
  | nil => rfl
  | cons a w ih =>
    simp only [List.cons_append, List.dropWhile_cons, h a (by simp), if_true]
    exact ih fun c hc => h c (by simp [hc])

theorem dropWhile_decomp {α : Type} (p : α → Bool) (s : List α) :
    ∃ w, s = w ++ s.dropWhile p ∧ (∀ c ∈ w, p c = true) ∧
      (s.dropWhile p = [] ∨ ∃ c r, s.dropWhile p = c :: r ∧ p c = false) := by
  induction s with
  | nil => exact ⟨[], by simp⟩
  | cons a s ih =>
    cases ha : p a with
    | true =>
      obtain ⟨w, h1, h2, h3⟩ := ih
      refine ⟨a :: w, ?_, ?_, ?_⟩
      · simp only [List.dropWhile_cons, ha, if_true, List.cons_append]; rw [← h1]
      · intro c hc; rcases List.mem_cons.mp hc with rfl | hc
        · exact ha
        · exact h2 c hc
      · simpa only [List.dropWhile_cons, ha, if_true] using h3
    | false =>
      refine ⟨[], by simp [List.dropWhile_cons, ha], by simp, Or.inr ⟨a, s, ?_, ha⟩⟩
      simp [List.dropWhile_cons, ha]

theorem dropWhile_of_head {α : Type} (p : α → Bool) {c : α} {r : List α} (h : p c = false) :
    (c :: r).dropWhile p = c :: r := by simp [List.dropWhile_cons, h]

/-- A text that is empty or starts and ends with something that is not white
space. -/
def Trimmed (s : Str) : Prop :=
  s = [] ∨ (∃ c r, s = c :: r ∧ isWhitespace c = false) ∧ (∃ c r, s = r ++ [c] ∧ isWhitespace c = false)

theorem trimStart_ws (w s : Str) (h : AllWs w) : trimStart (w ++ s) = trimStart s :=
  dropWhile_append_all _ _ _ h

theorem trimEnd_ws (s w : Str) (h : AllWs w) : trimEnd (s ++ w) = trimEnd s := by
  unfold trimEnd
  rw [List.reverse_append, dropWhile_append_all _ _ _ h.reverse]

theorem trimEnd_of_last {s : Str} {c : Char} (h : isWhitespace c = false) :
    trimEnd (s ++ [c]) = s ++ [c] := by
  unfold trimEnd
  simp [List.dropWhile_cons, h]

theorem trim_decomp (s : Str) :
    ∃ w w', AllWs w ∧ AllWs w' ∧ s = w ++ trim s ++ w' ∧ Trimmed (trim s) := by
  obtain ⟨w, h1, h2, h3⟩ := dropWhile_decomp isWhitespace s
  obtain ⟨v, g1, g2, g3⟩ := dropWhile_decomp isWhitespace (trimStart s).reverse
  have ht : trim s = ((trimStart s).reverse.dropWhile isWhitespace).reverse := rfl
  have hs : trimStart s = trim s ++ v.reverse := by
    rw [ht, ← List.reverse_append, ← g1, List.reverse_reverse]
  refine ⟨w, v.reverse, h2, (show AllWs v from g2).reverse, ?_, ?_⟩
  · rw [List.append_assoc, ← hs]; exact h1
  · rcases g3 with g3 | ⟨c, r, g3, hc⟩
    · left; rw [ht, g3]; rfl
    · right
      have e : trim s = r.reverse ++ [c] := by rw [ht, g3]; simp
      refine ⟨?_, ⟨c, r.reverse, e, hc⟩⟩
      rcases h3 with h3 | ⟨d, q, h3, hd⟩
      · exfalso
        have : trimStart s = [] := h3
        rw [this] at hs
        have := congrArg List.length hs
        rw [e] at this; simp at this
      · have h3' : trimStart s = d :: q := h3
        rw [hs, e] at h3'
        cases hr : r.reverse with
        | nil =>
          rw [hr] at e h3'
          simp only [List.nil_append, List.cons_append, List.cons.injEq] at h3'
          exact ⟨c, [], by rw [e]; rfl, hc⟩
        | cons x y =>
          rw [hr] at e h3'
          simp only [List.cons_append, List.cons.injEq] at h3'
          exact ⟨x, y ++ [c], by rw [e]; rfl, by rw [h3'.1]; exact hd⟩

theorem trim_of_trimmed {s : Str} (h : Trimmed s) : trim s = s := by
  rcases h with rfl | ⟨⟨c, r, h1, hc⟩, ⟨d, q, h2, hd⟩⟩
  · rfl
  · have : trimStart s = s := by rw [h1]; exact dropWhile_of_head _ hc
    unfold trim; rw [this, h2]; exact trimEnd_of_last hd

theorem trim_trimmed (s : Str) : Trimmed (trim s) := by
  obtain ⟨_, _, _, _, _, h⟩ := trim_decomp s; exact h

theorem trim_ws_all {w : Str} (h : AllWs w) : trim w = [] := by
  have : trimStart w = [] := by
    have := trimStart_ws w [] h
    simpa [trimStart] using this
  simp [trim, this, trimEnd]

theorem trim_surround (w s w' : Str) (h : AllWs w) (h' : AllWs w') :
    trim (w ++ s ++ w') = trim s := by
  obtain ⟨v, v', hv, hv', hs, ht⟩ := trim_decomp s
  have e : w ++ s ++ w' = (w ++ v) ++ trim s ++ (v' ++ w') := by
    conv => lhs; rw [hs]
    simp
  rw [e]
  have hws : AllWs (w ++ v) := h.append hv
  have hws' : AllWs (v' ++ w') := hv'.append h'
  rcases ht with ht | ⟨⟨c, r, h1, hc⟩, ⟨d, q, h2, hd⟩⟩
  · rw [ht, List.append_nil]; exact trim_ws_all (hws.append hws')
  · unfold trim at *
    rw [List.append_assoc, trimStart_ws _ _ hws]
    generalize hm : trimEnd (trimStart s) = m at *
    have : trimStart (m ++ (v' ++ w')) = m ++ (v' ++ w') := by
      rw [h1]; exact dropWhile_of_head _ hc
    rw [this, trimEnd_ws _ _ hws', h2]; exact trimEnd_of_last hd

theorem trim_eq_nil_iff (s : Str) : trim s = [] ↔ AllWs s := by
  constructor
  · intro h
    obtain ⟨w, w', hw, hw', hs, _⟩ := trim_decomp s
    rw [hs, h, List.append_nil]; exact hw.append hw'
  · exact trim_ws_all

theorem trim_trim (s : Str) : trim (trim s) = trim s := trim_of_trimmed (trim_trimmed s)

theorem trimStart_trim (s : Str) : trimStart (trim s) = trim s := by
  rcases trim_trimmed s with h | ⟨⟨c, r, h1, hc⟩, _⟩
  · rw [h]; rfl
  · rw [h1]; exact dropWhile_of_head _ hc

/-! ### lines -/

theorem linesAux_line (acc l s : Str) (h : '\n' ∉ l) :
    linesAux acc (l ++ '\n' :: s) = stripCr (acc.reverse ++ l) :: lines s := by
  induction l generalizing acc with
  | nil => simp [linesAux, lines]
  | cons c l ih =>
    have hc : c ≠ '\n' := fun e => h (by simp [e])
    have hl : '\n' ∉ l := fun e => h (by simp [e])
    rw [List.cons_append, linesAux]
    · rw [ih _ hl]; simp
    · exact hc

theorem linesAux_last (acc l : Str) (h : '\n' ∉ l) :
    linesAux acc l = if acc.isEmpty && l.isEmpty then [] else [acc.reverse ++ l] := by
  induction l generalizing acc with
  | nil => cases acc <;> simp [linesAux]
  | cons c l ih =>
    have hc : c ≠ '\n' := fun e => h (by simp [e])
    have hl : '\n' ∉ l := fun e => h (by simp [e])
    rw [linesAux, ih _ hl]
    · simp
    · exact hc

theorem lines_line (l s : Str) (h : '\n' ∉ l) : lines (l ++ '\n' :: s) = stripCr l :: lines s := by
  unfold lines; rw [linesAux_line _ _ _ h]; simp [lines]

theorem lines_last (l : Str) (h : '\n' ∉ l) (hne : l ≠ []) : lines l = [l] := by
  unfold lines; rw [linesAux_last _ _ h]; cases l <;> simp_all

/-- Every text has no line feed, or a first line that ends in one. -/
theorem first_line (s : Str) : '\n' ∉ s ∨ ∃ l r, s = l ++ '\n' :: r ∧ '\n' ∉ l := by
  induction s with
  | nil => left; simp
  | cons c s ih =>
    by_cases hc : c = '\n'
    · right; exact ⟨[], s, by simp [hc], by simp⟩
    · rcases ih with h | ⟨l, r, rfl, hl⟩
      · left; simp [h]; exact fun e => hc e.symm
      · right; exact ⟨c :: l, r, rfl, by simp [hl]; exact fun e => hc e.symm⟩

theorem stripCr_noCr {l : Str} (h : '\r' ∉ l) : stripCr l = l := by
  unfold stripCr
  split
  · rename_i t ht
    have hm : '\r' ∈ l.reverse := by rw [ht]; simp
    exact absurd (List.mem_reverse.mp hm) h
  · rfl

/-- For a text without carriage returns and not ending in a line feed, writing
its lines back gives the text and a final line feed. -/
theorem writeLines_lines (d : Str) (hcr : '\r' ∉ d) (hne : d ≠ []) (hlast : ∀ r, d ≠ r ++ ['\n']) :
    writeLines (lines d) = d ++ ['\n'] := by
  induction hn : d.length using Nat.strongRecOn generalizing d with
  | ind n ih =>
    rcases first_line d with h | ⟨l, r, rfl, hl⟩
    · rw [lines_last d h hne]; simp [writeLines]
    · have hcl : '\r' ∉ l := fun e => hcr (by simp [e])
      have hcrr : '\r' ∉ r := fun e => hcr (by simp [e])
      have hr : r ≠ [] := by rintro rfl; exact hlast l rfl
      have hrl : ∀ q, r ≠ q ++ ['\n'] := by
        rintro q rfl; exact hlast (l ++ '\n' :: q) (by simp)
      have hlen : r.length < n := by rw [← hn]; simp; omega
      rw [lines_line l r hl, stripCr_noCr hcl, writeLines, ih r.length hlen r hcrr hr hrl rfl]
      simp

/-! ### The comment lines of a text -/

/-- The non-blank lines of a text, trimmed. -/
def contentLines (ls : List Str) : List Str := (ls.map trim).filter (· ≠ [])

/-- `contentLines` of the lines of a text. -/
def content (s : Str) : List Str := contentLines (lines s)

theorem contentLines_cons (l : Str) (ls : List Str) :
    contentLines (l :: ls) = (if trim l = [] then [] else [trim l]) ++ contentLines ls := by
  by_cases h : trim l = [] <;> simp [contentLines, h]

theorem leadingLines_eq (c : FormatConfig) (ls : List Str) :
    leadingLines c ls = (contentLines ls).flatMap fun l => indentText c ++ l ++ ['\n'] := by
  induction ls with
  | nil => rfl
  | cons l ls ih =>
    rw [contentLines_cons, leadingLines, ih]
    by_cases h : trim l = [] <;> simp [h]

theorem isWs_cr : isWhitespace '\r' = true := by decide
theorem isWs_nl : isWhitespace '\n' = true := by decide
theorem isWs_sp : isWhitespace ' ' = true := by decide

theorem trim_stripCr (l : Str) : trim (stripCr l) = trim l := by
  unfold stripCr
  split
  · rename_i t ht
    have : l = t.reverse ++ ['\r'] := by
      have := congrArg List.reverse ht; simpa using this
    rw [this]
    have := trim_surround [] t.reverse ['\r'] AllWs.nil (by intro c hc; simp at hc; subst hc; rfl)
    simpa using this.symm
  · rfl

theorem content_line (l s : Str) (h : '\n' ∉ l) :
    content (l ++ '\n' :: s) = (if trim l = [] then [] else [trim l]) ++ content s := by
  unfold content; rw [lines_line _ _ h, contentLines_cons, trim_stripCr]

theorem content_last (l : Str) (h : '\n' ∉ l) :
    content l = if trim l = [] then [] else [trim l] := by
  by_cases hne : l = []
  · subst hne; rfl
  · unfold content; rw [lines_last l h hne, contentLines_cons]; simp [contentLines]

theorem content_ws_prefix (w s : Str) (h : AllWs w) : content (w ++ s) = content s := by
  induction w with
  | nil => rfl
  | cons c w ih =>
    rw [List.cons_append]
    have hw : AllWs w := fun x hx => h x (by simp [hx])
    rw [← ih hw]
    generalize w ++ s = t
    by_cases hc : c = '\n'
    · subst hc
      have := content_line [] t (by simp)
      simpa [show trim [] = [] from rfl] using this
    · have htr : ∀ l : Str, trim (c :: l) = trim l := by
        intro l
        have := trim_surround [c] l [] (by intro x hx; simp at hx; subst hx; exact h x (by simp)) AllWs.nil
        simpa using this
      rcases first_line t with h' | ⟨l, r, rfl, hl⟩
      · have h2 : '\n' ∉ c :: t := by simp [h']; exact fun e => hc e.symm
        rw [content_last _ h2, content_last _ h', htr]
      · have h2 : '\n' ∉ c :: l := by simp [hl]; exact fun e => hc e.symm
        have e : c :: (l ++ '\n' :: r) = (c :: l) ++ '\n' :: r := rfl
        rw [e, content_line _ _ h2, content_line _ _ hl, htr]

theorem content_ws {w : Str} (h : AllWs w) : content w = [] := by
  have := content_ws_prefix w [] h
  rw [List.append_nil] at this; rw [this]; rfl

theorem content_ws_suffix (s w : Str) (h : AllWs w) : content (s ++ w) = content s := by
  induction hn : s.length using Nat.strongRecOn generalizing s with
  | ind n ih =>
    rcases first_line s with h' | ⟨l, r, rfl, hl⟩
    · rcases first_line w with hw | ⟨l, r, rfl, hl⟩
      · have h2 : '\n' ∉ s ++ w := by simp [h', hw]
        rw [content_last _ h2, content_last _ h']
        have := trim_surround [] s w AllWs.nil h
        simp only [List.nil_append] at this; rw [this]
      · have h2 : '\n' ∉ s ++ l := by simp [h', hl]
        have e : s ++ (l ++ '\n' :: r) = (s ++ l) ++ '\n' :: r := by simp
        have hl' : AllWs l := fun x hx => h x (by simp [hx])
        have hr' : AllWs r := fun x hx => h x (by simp [hx])
        rw [e, content_line _ _ h2, content_last _ h', content_ws hr']
        have := trim_surround [] s l AllWs.nil hl'
        simp only [List.nil_append] at this; rw [this]; simp
    · have hlen : r.length < n := by rw [← hn]; simp; omega
      rw [List.append_assoc, List.cons_append, content_line _ _ hl, content_line _ _ hl,
        ih r.length hlen r rfl]

theorem content_trim (s : Str) : content (trim s) = content s := by
  obtain ⟨w, w', hw, hw', hs, _⟩ := trim_decomp s
  conv => rhs; rw [hs]
  rw [content_ws_suffix _ _ hw', content_ws_prefix _ _ hw]

/-- Lines as they come out of `content`. -/
def CleanLine (l : Str) : Prop := Trimmed l ∧ l ≠ [] ∧ '\n' ∉ l

theorem trim_subset {c : Char} {s : Str} (h : c ∈ trim s) : c ∈ s := by
  obtain ⟨w, w', _, _, hs, _⟩ := trim_decomp s
  rw [hs]; simp [h]

theorem content_clean (s : Str) : ∀ l ∈ content s, CleanLine l := by
  induction hn : s.length using Nat.strongRecOn generalizing s with
  | ind n ih =>
    rcases first_line s with h' | ⟨l, r, rfl, hl⟩
    · rw [content_last _ h']
      split
      · simp
      · rename_i hne
        intro l hl; simp only [List.mem_singleton] at hl; subst hl
        exact ⟨trim_trimmed _, hne, fun e => h' (trim_subset e)⟩
    · have hlen : r.length < n := by rw [← hn]; simp; omega
      rw [content_line _ _ hl]
      intro x hx
      rcases List.mem_append.mp hx with hx | hx
      · split at hx
        · simp at hx
        · rename_i hne
          simp only [List.mem_singleton] at hx; subst hx
          exact ⟨trim_trimmed _, hne, fun e => hl (trim_subset e)⟩
      · exact ih r.length hlen r rfl x hx

/-- Writing clean lines with a white-space indent and reading them back. -/
theorem content_write (ind : Str) (hi : AllWs ind) (ls : List Str) (h : ∀ l ∈ ls, CleanLine l)
    (w : Str) (hw : AllWs w) :
    content ((ls.flatMap fun l => ind ++ l ++ ['\n']) ++ w) = ls := by
  induction ls with
  | nil => simpa using content_ws hw
  | cons l ls ih =>
    obtain ⟨h1, h2, h3⟩ := h l (by simp)
    rw [List.flatMap_cons, List.append_assoc, List.append_assoc, List.append_assoc,
      content_ws_prefix _ _ hi]
    have e : ∀ r : Str, l ++ (['\n'] ++ r) = l ++ '\n' :: r := fun r => rfl
    rw [e, content_line _ _ h3, trim_of_trimmed h1, ih fun x hx => h x (by simp [hx])]
    simp [h2]

theorem indentText_ws (c : FormatConfig) (h : AllWs c.indent) : AllWs (indentText c) := by
  intro x hx
  unfold indentText at hx
  rw [List.mem_flatten] at hx
  obtain ⟨l, hl, hxl⟩ := hx
  rw [List.mem_replicate] at hl
  exact h x (hl.2 ▸ hxl)

/-- Closed form of `autoformat_leading`. -/
theorem autoformatLeading_eq (c : FormatConfig) (s : Str) :
    autoformatLeading c s =
      (if c.noComments then [] else (content s).flatMap fun l => indentText c ++ l ++ ['\n'])
        ++ indentText c := by
  unfold autoformatLeading
  split
  · rfl
  · congr 1
    rw [← content_trim]
    split
    · rename_i h
      have : trim s = [] := by simpa using h
      rw [this]; rfl
    · rw [leadingLines_eq]; rfl

/-- `autoformat_leading` depends only on the content of its input, and its
output has the same content. -/
theorem autoformatLeading_content (c : FormatConfig) (hi : AllWs c.indent) (hn : c.noComments = false)
    (s : Str) : content (autoformatLeading c s) = content s := by
  rw [autoformatLeading_eq, hn]
  exact content_write _ (indentText_ws c hi) _ (content_clean s) _ (indentText_ws c hi)

theorem autoformatLeading_congr (c : FormatConfig) {s t : Str} (h : content s = content t) :
    autoformatLeading c s = autoformatLeading c t := by
  rw [autoformatLeading_eq, autoformatLeading_eq, h]

theorem autoformatLeading_idem (c : FormatConfig) (hi : AllWs c.indent) (s t : Str)
    (ht : content t = content (autoformatLeading c s)) :
    autoformatLeading c t = autoformatLeading c s := by
  cases hn : c.noComments with
  | true => rw [autoformatLeading_eq, autoformatLeading_eq, hn]; rfl
  | false =>
    apply autoformatLeading_congr
    rw [ht, autoformatLeading_content c hi hn]

/-- Closed form of `autoformat_trailing` for texts without carriage returns. -/
theorem autoformatTrailing_eq (nc : Bool) (s : Str) (hcr : '\r' ∉ s) :
    autoformatTrailing nc s =
      if nc = true ∨ trim s = [] then [] else ' ' :: trim s ++ ['\n'] := by
  unfold autoformatTrailing
  by_cases hs : s = []
  · subst hs; simp [show trim [] = [] from rfl]
  · have hse : s.isEmpty = false := by simp [hs]
    simp only [hse, Bool.false_eq_true, if_false]
    by_cases ht : trim s = []
    · simp [ht]
    · cases nc with
      | true => simp
      | false =>
        have : (trim s).isEmpty = false := by simp [ht]
        simp only [this, trimStart_trim, if_true, ht, Bool.not_false, Bool.and_self, or_self,
          Bool.false_eq_true, if_false]
        rw [writeLines_lines (trim s) (fun e => hcr (trim_subset e)) ht]
        · rfl
        · intro r hr
          rcases trim_trimmed s with h | ⟨_, ⟨d, q, h2, hd⟩⟩
          · exact ht h
          · rw [h2] at hr
            have := (List.append_inj_right' hr rfl)
            simp only [List.cons.injEq, and_true] at this
            rw [this] at hd; simp [isWs_nl] at hd

end Kdl
