import Verif.Spec.Lined
import Verif.Lemmas.ScanFmt
/-
What the formatter makes of texts that may be cut into lines.
-/

namespace Kdl
open Spec

/-! ### Lines -/

theorem pieces_cons (c : Char) (s : Str) : (c = '\n' ∧ pieces (c :: s) = [] :: pieces s) ∨
    (c ≠ '\n' ∧ ∃ l ls, pieces s = l :: ls ∧ pieces (c :: s) = (c :: l) :: ls) := by
  have hne : ∀ t : Str, pieces t ≠ [] := by
    intro t
    cases t with
    | nil => simp [pieces]
    | cons d t =>
      rw [pieces]
      split
      · simp
      · split <;> simp
  by_cases hc : c = '\n'
  · exact Or.inl ⟨hc, by rw [pieces, if_pos hc]⟩
  · refine Or.inr ⟨hc, ?_⟩
    cases h : pieces s with
    | nil => exact absurd h (hne s)
    | cons l ls => exact ⟨l, ls, rfl, by rw [pieces, if_neg hc, h]⟩

theorem pieces_of_line (l s : Str) (h : '\n' ∉ l) : pieces (l ++ '\n' :: s) = l :: pieces s := by
  induction l with
  | nil => rw [List.nil_append, pieces, if_pos rfl]
  | cons c l ih =>
    rw [List.cons_append]
    rcases pieces_cons c (l ++ '\n' :: s) with ⟨rfl, _⟩ | ⟨_, l', ls, e1, e2⟩
    · simp at h
    · rw [ih fun hm => h (by simp [hm])] at e1
      cases e1
      exact e2

theorem pieces_of_last (l : Str) (h : '\n' ∉ l) : pieces l = [l] := by
  induction l with
  | nil => rfl
  | cons c l ih =>
    rcases pieces_cons c l with ⟨rfl, _⟩ | ⟨_, l', ls, e1, e2⟩
    · simp at h
    · rw [ih fun hm => h (by simp [hm])] at e1
      cases e1
      exact e2

theorem stripCr_cases (l : Str) : stripCr l = l ∨ l = stripCr l ++ ['\r'] := by
  unfold stripCr
  split
  · next t ht =>
    right
    have := congrArg List.reverse ht
    simpa using this
  · exact Or.inl rfl

/-- The lines of a text, as Rust has them, are its pieces, perhaps without a carriage return. -/
theorem lines_pieces (s : Str) : ∀ l ∈ lines s, ∃ b, AllBlank b ∧ l ++ b ∈ pieces s := by
  induction hn : s.length using Nat.strongRecOn generalizing s with
  | ind n ih =>
    rcases first_line s with h | ⟨l, r, rfl, hl⟩
    · intro l hl
      by_cases hs : s = []
      · subst hs
        cases hl
      · rw [lines_last s h hs] at hl
        rw [List.mem_singleton.mp hl, pieces_of_last s h]
        exact ⟨[], by simp [AllBlank], by simp⟩
    · intro k hk
      rw [lines_line l r hl] at hk
      rw [pieces_of_line l r hl]
      rcases List.mem_cons.mp hk with rfl | hk
      · rcases stripCr_cases l with e | e
        · exact ⟨[], by simp [AllBlank], by rw [e]; simp⟩
        · exact ⟨['\r'], by simp [AllBlank]; decide, by rw [← e]; simp⟩
      · obtain ⟨b, h1, h2⟩ := ih r.length (by rw [← hn]; simp; omega) r rfl k hk
        exact ⟨b, h1, by simp [h2]⟩

theorem pieces_prefix {w s : Str} (hw : AllBlank w) : ∀ l ∈ pieces s, ∃ a, AllBlank a ∧ a ++ l ∈ pieces (w ++ s) := by
  induction w with
  | nil => exact fun l hl => ⟨[], by simp [AllBlank], hl⟩
  | cons c w ih =>
    intro l hl
    obtain ⟨a, h1, h2⟩ := ih (fun x hx => hw x (by simp [hx])) l hl
    rw [List.cons_append]
    rcases pieces_cons c (w ++ s) with ⟨rfl, e⟩ | ⟨_, l', ls, e1, e2⟩
    · exact ⟨a, h1, by rw [e]; simp [h2]⟩
    · rw [e1] at h2
      rw [e2]
      rcases List.mem_cons.mp h2 with h2 | h2
      · refine ⟨c :: a, ?_, by rw [← h2]; simp⟩
        intro x hx
        rcases List.mem_cons.mp hx with rfl | hx
        · exact hw x (by simp)
        · exact h1 x hx
      · exact ⟨a, h1, by simp [h2]⟩

theorem pieces_suffix {w : Str} (hw : AllBlank w) : ∀ (s : Str), ∃ l ls l' ls', pieces s = l :: ls ∧ pieces (s ++ w) = l' :: ls' ∧
    (∃ b, AllBlank b ∧ l' = l ++ b) ∧ ∀ k ∈ ls, ∃ b, AllBlank b ∧ k ++ b ∈ ls'
  | [] => by
    cases h : pieces w with
    | nil =>
      cases w with
      | nil => cases h
      | cons c w => rcases pieces_cons c w with ⟨_, e⟩ | ⟨_, _, _, _, e⟩ <;> rw [e] at h <;> cases h
    | cons l ls =>
      refine ⟨[], [], l, ls, rfl, by rw [List.nil_append, h], ⟨l, ?_, rfl⟩, by simp⟩
      intro x hx
      have key : ∀ (w : Str), ∀ l ∈ pieces w, ∀ x ∈ l, x ∈ w := by
        intro w
        induction w with
        | nil => intro l hl; cases hl with | head => simp | tail _ h => cases h
        | cons c w ih =>
          intro l hl x hx
          rcases pieces_cons c w with ⟨_, e⟩ | ⟨_, l', ls, e1, e2⟩
          · rw [e] at hl
            rcases List.mem_cons.mp hl with rfl | hl
            · cases hx
            · exact List.mem_cons_of_mem _ (ih l hl x hx)
          · rw [e2] at hl
            rcases List.mem_cons.mp hl with rfl | hl
            · rcases List.mem_cons.mp hx with rfl | hx
              · simp
              · exact List.mem_cons_of_mem _ (ih l' (by rw [e1]; simp) x hx)
            · exact List.mem_cons_of_mem _ (ih l (by rw [e1]; simp [hl]) x hx)
      exact hw x (key w l (by rw [h]; simp) x hx)
  | c :: s => by
    obtain ⟨l, ls, l', ls', e1, e2, ⟨b, hb, e3⟩, h⟩ := pieces_suffix hw s
    rw [List.cons_append]
    rcases pieces_cons c s with ⟨rfl, f⟩ | ⟨hc, k, ks, f1, f2⟩
    · rcases pieces_cons '\n' (s ++ w) with ⟨_, g⟩ | ⟨g, _⟩
      · refine ⟨[], l :: ls, [], l' :: ls', by rw [f, e1], by rw [g, e2], ⟨[], by simp [AllBlank], rfl⟩, ?_⟩
        intro x hx
        rcases List.mem_cons.mp hx with rfl | hx
        · exact ⟨b, hb, by rw [← e3]; simp⟩
        · obtain ⟨b, h1, h2⟩ := h x hx
          exact ⟨b, h1, by simp [h2]⟩
      · exact absurd rfl g
    · rcases pieces_cons c (s ++ w) with ⟨rfl, _⟩ | ⟨_, k', ks', g1, g2⟩
      · exact absurd rfl hc
      · rw [e1] at f1
        rw [e2] at g1
        cases f1
        cases g1
        exact ⟨c :: l, ls, c :: l', ls', f2, g2, ⟨b, hb, by rw [e3]; rfl⟩, h⟩

section
variable [FloatIO]

theorem Spec.Lined.trim {s : Str} (h : Lined s) : Lined (trim s) := by
  obtain ⟨w, w', hw, hw', hs, _⟩ := trim_decomp s
  intro l hl a m b e ha hb x
  obtain ⟨a', h1, h2⟩ := pieces_prefix (w := w) hw l hl
  obtain ⟨k, ks, k', ks', e1, e2, ⟨b', hb', e3⟩, h3⟩ := pieces_suffix (w := w') hw' (w ++ Kdl.trim s)
  rw [e1] at h2
  rw [← hs] at e2
  have : ∃ b'', AllBlank b'' ∧ (a' ++ l) ++ b'' ∈ pieces s := by
    rcases List.mem_cons.mp h2 with h2 | h2
    · exact ⟨b', hb', by rw [e2, h2, ← e3]; simp⟩
    · obtain ⟨b'', h4, h5⟩ := h3 _ h2
      exact ⟨b'', h4, by rw [e2]; exact List.mem_cons_of_mem _ h5⟩
  obtain ⟨b'', h4, h5⟩ := this
  refine h _ h5 (a' ++ a) m (b ++ b'') (by rw [e]; simp) ?_ ?_ x
  · intro c hc
    rcases List.mem_append.mp hc with hc | hc
    · exact h1 c hc
    · exact ha c hc
  · intro c hc
    rcases List.mem_append.mp hc with hc | hc
    · exact hb c hc
    · exact h4 c hc

omit [FloatIO] in
theorem trim_between {w T w' : Str} (hw : AllWs w) (hw' : AllWs w') (h : Trimmed T) : trim (w ++ (T ++ w')) = T := by
  unfold Kdl.trim
  rw [trimStart_ws _ _ hw]
  rcases h with rfl | ⟨⟨c, r, e, hc⟩, d, q, e', hd⟩
  · have := (trim_eq_nil_iff w').mpr hw'
    unfold Kdl.trim at this
    simpa using this
  · have h1 : trimStart (T ++ w') = T ++ w' := by
      rw [e]
      exact dropWhile_of_head _ hc
    rw [h1, trimEnd_ws _ _ hw', e', trimEnd_of_last hd]

/-! ### Texts in front of nodes -/

theorem lead_concat {c : Cat} {r L1 : Str} (h : Text c r L1) : c = .lead → ∀ {r' L2 : Str}, r = L2 ++ r' → Text .lead r' L2 →
    Text .lead r' (L1 ++ L2) := by
  induction h with
  | leadNil => exact fun _ _ _ _ h => h
  | @leadSpace r w L hw hL ih =>
    rintro _ r' L2 rfl h
    have := Text.leadSpace (r := r') (L := L ++ L2) (w := w) (by simpa using hw) (ih rfl rfl h)
    simpa using this
  | @leadNode k r b B L d hb hB hs hL _ ih =>
    rintro _ r' L2 rfl h
    have := Text.leadNode (r := r') (L := L ++ L2) hb (by simpa using hB) (by simpa using hs) (ih rfl rfl h)
    simpa using this
  | _ => intro e; cases e

theorem leadAll_append {L1 L2 : Str} (h1 : ∀ x, Text .lead x L1) (h2 : ∀ x, Text .lead x L2) (x : Str) : Text .lead x (L1 ++ L2) :=
  lead_concat (h1 (L2 ++ x)) rfl rfl (h2 x)

/-- White space in front may be left out. -/
theorem lead_unspace {c : Cat} {r T : Str} (h : Text c r T) : c = .lead → ∀ {a : Char} {L : Str}, T = a :: L → Space a → Text .lead r L := by
  induction h with
  | leadNil => rintro _ a L ⟨⟩
  | @leadSpace r w T hw hL ih =>
    rintro _ a L e ha
    cases hw with
    | nil => exact ih rfl e ha
    | space h1 h2 =>
      cases e
      exact .leadSpace h2 hL
    | comment =>
      obtain ⟨rfl, _⟩ := List.cons.inj e
      exact absurd ha (by decide)
    | cont =>
      obtain ⟨rfl, _⟩ := List.cons.inj e
      exact absurd ha (by decide)
    | newline hm _ =>
      rcases hm with rfl | ⟨c, rfl, hc, _⟩
      · obtain ⟨rfl, _⟩ := List.cons.inj e
        exact absurd ha (by decide)
      · obtain ⟨rfl, _⟩ := List.cons.inj e
        exact absurd hc (space_not_newline ha)
    | line hm _ =>
      obtain ⟨_, _, rfl, _⟩ := hm
      obtain ⟨rfl, _⟩ := List.cons.inj e
      exact absurd ha (by decide)
  | leadNode =>
    rintro _ a L e ha
    obtain ⟨rfl, _⟩ := List.cons.inj e
    exact absurd ha (by decide)
  | _ => intro e; cases e

theorem lead_unspaces {r T : Str} : ∀ (w : Str), (∀ c ∈ w, Space c) → Text .lead r (w ++ T) → Text .lead r T
  | [], _, h => h
  | _ :: w, hw, h => lead_unspaces w (fun x hx => hw x (by simp [hx])) (lead_unspace h rfl rfl (hw _ (by simp)))

theorem lead_space {r w : Str} (h : LSpace r w) : Text .lead r w := by
  have := Text.leadSpace (L := []) (r := r) (w := w) (by simpa using h) .leadNil
  simpa using this

theorem spaces_lead {w : Str} (hw : ∀ c ∈ w, Space c) (x : Str) : Text .lead x w := by
  refine lead_space ?_
  induction w with
  | nil => exact .nil
  | cons c w ih => exact .space (hw c (by simp)) (ih fun y hy => hw y (by simp [hy]))

omit [FloatIO] in
theorem indentText_spaces {c : FormatConfig} (hi : ∀ x ∈ c.indent, Space x) : ∀ x ∈ indentText c, Space x := by
  intro y hy
  unfold indentText at hy
  obtain ⟨l, hl, hy⟩ := List.mem_flatten.mp hy
  rw [(List.mem_replicate.mp hl).2] at hy
  exact hi y hy

omit [FloatIO] in
theorem content_pieces {s : Str} : ∀ l ∈ content s, ∃ a b, AllBlank a ∧ AllBlank b ∧ a ++ (l ++ b) ∈ pieces s := by
  intro l hl
  unfold content contentLines at hl
  obtain ⟨k, hk, rfl⟩ := List.mem_map.mp (List.mem_filter.mp hl).1
  obtain ⟨b, hb, hm⟩ := lines_pieces s k hk
  obtain ⟨w, w', hw, hw', e, _⟩ := trim_decomp k
  refine ⟨w, w' ++ b, hw, ?_, ?_⟩
  · intro c hc
    rcases List.mem_append.mp hc with hc | hc
    · exact hw' c hc
    · exact hb c hc
  · rw [e] at hm
    simpa using hm

theorem Spec.Lined.indented {s ind : Str} (h : Lined s) (hi : ∀ c ∈ ind, Space c) : ∀ x, Text .lead x (indented ind (content s)) := by
  have key : ∀ l ∈ content s, ∀ x, Text .lead x (l ++ ['\n']) := by
    intro l hl x
    obtain ⟨a, b, ha, hb, hm⟩ := content_pieces l hl
    exact h _ hm a l b rfl ha hb x
  unfold Kdl.indented
  generalize content s = ls at key
  induction ls with
  | nil => exact fun x => .leadNil
  | cons l ls ih =>
    have h1 := leadAll_append (leadAll_append (spaces_lead hi) (key l (by simp))) (ih fun k hk => key k (by simp [hk]))
    simpa using h1

theorem Spec.Orderly.indented {c : FormatConfig} {s : Str} (h : Orderly s) (hi : ∀ x ∈ c.indent, Space x) :
    ∀ x, Text .lead x (indented (indentText c) (content s)) := by
  rcases h with ⟨r, h⟩ | h
  · intro x
    obtain ⟨q, h1, h2⟩ := h.scan
    have hb := ready_nl h2
    have hc := scan_content (indentText_allWs hi) _ rfl (.inl rfl) h1 (by rw [hb]; rfl)
    rw [hb] at hc
    exact lead_space (scan_lspace (indented_last _) hc x)
  · exact h.indented (indentText_spaces hi)

/-- What the formatter puts in front of a node. -/
theorem Spec.Orderly.leading {c : FormatConfig} {s : Str} (h : Orderly s) (hi : ∀ x ∈ c.indent, Space x) :
    ∀ x, Text .lead x (autoformatLeading c s) := by
  rw [autoformatLeading_eq]
  refine leadAll_append ?_ (spaces_lead (indentText_spaces hi))
  split
  · exact fun _ => .leadNil
  · exact h.indented hi

/-- What the formatter puts behind the brace of a block. -/
theorem Spec.Orderly.first {c : FormatConfig} {s : Str} (h : Orderly s) (hi : ∀ x ∈ c.indent, Space x) :
    ∀ x, Text .lead x (trim (autoformatLeading c s) ++ ['\n']) := by
  have hnl : ∀ x, Text .lead x ['\n'] := fun x =>
    lead_space (.newline (m := ['\n']) (t := []) (Or.inr ⟨_, rfl, by decide, by simp⟩) .nil)
  have hsp := indentText_spaces hi
  have hws := indentText_allWs hi
  have hg := h.indented hi
  rw [autoformatLeading_eq]
  by_cases hn : c.noComments = true
  · rw [if_pos hn, List.nil_append, (trim_eq_nil_iff _).mpr hws]
    exact hnl
  · rw [if_neg hn]
    have hclean := content_clean s
    rcases List.eq_nil_or_concat (content s) with e | ⟨ls, l, e⟩
    · rw [e]
      simp only [List.flatMap_nil, List.nil_append]
      rw [(trim_eq_nil_iff _).mpr hws]
      exact hnl
    · have e0 : content s = ls ++ [l] := by rw [e, List.concat_eq_append]
      obtain ⟨l1, rest, e1⟩ : ∃ l1 rest, content s = l1 :: rest := by
        rw [e0]
        cases ls with
        | nil => exact ⟨_, _, rfl⟩
        | cons a ls => exact ⟨_, _, rfl⟩
      have hY : ∃ Y, Kdl.indented (indentText c) (content s) = indentText c ++ Y ∧ ∃ y, Y = l1 ++ y := by
        rw [e1]
        exact ⟨_, by simp only [Kdl.indented, List.flatMap_cons, List.append_assoc]; rfl, _, rfl⟩
      obtain ⟨Y, h1, y, h2⟩ := hY
      have hZ : Kdl.indented (indentText c) (content s) = (Kdl.indented (indentText c) ls ++ (indentText c ++ l)) ++ ['\n'] := by
        rw [e0]
        simp [Kdl.indented]
      obtain ⟨⟨c1, r1, f1, f2⟩⟩ | ⟨hl1, _⟩ := (hclean l1 (by rw [e1]; simp)).1
      · exact absurd rfl (hclean [] (by rw [e1]; simp)).2.1
      obtain ⟨⟨c2, r2, f3, f4⟩⟩ | ⟨_, hl2⟩ := (hclean l (by rw [e0]; simp)).1
      · exact absurd rfl (hclean [] (by rw [e0]; simp)).2.1
      obtain ⟨c1, r1, rfl, f1⟩ := hl1
      obtain ⟨c2, r2, rfl, f2⟩ := hl2
      -- the text without its first indentation and its last line feed
      obtain ⟨T, hT⟩ : ∃ T, Y = T ++ ['\n'] := by
        rcases List.eq_nil_or_concat Y with e | ⟨T, z, e⟩
        · rw [e] at h2
          simp at h2
        · rw [List.concat_eq_append] at e
          have := h1.symm.trans hZ
          rw [e, ← List.append_assoc] at this
          have hz := (List.append_inj' this rfl).2
          exact ⟨T, by rw [e, hz]⟩
      have hT2 : indentText c ++ T = Kdl.indented (indentText c) ls ++ (indentText c ++ (r2 ++ [c2])) := by
        have := h1.symm.trans hZ
        rw [hT, ← List.append_assoc] at this
        exact (List.append_inj' this rfl).1
      have hne : T ≠ [] := by
        rintro rfl
        rw [hT] at h2
        obtain ⟨e, _⟩ := List.cons.inj h2
        rw [← e] at f1
        exact absurd f1 (by decide)
      have htr : Trimmed T := by
        refine Or.inr ⟨?_, ?_⟩
        · cases T with
          | nil => exact absurd rfl hne
          | cons z T =>
            rw [h2] at hT
            obtain ⟨e, _⟩ := List.cons.inj hT
            exact ⟨z, T, rfl, e ▸ f1⟩
        · rcases List.eq_nil_or_concat T with e | ⟨T', z, e⟩
          · exact absurd e hne
          · rw [List.concat_eq_append] at e
            rw [e, ← List.append_assoc, ← List.append_assoc, ← List.append_assoc] at hT2
            have hz := (List.append_inj' hT2 rfl).2
            cases hz
            exact ⟨c2, T', e, f2⟩
      have hg' : ∀ x, Text .lead x (T ++ ['\n']) := by
        intro x
        have := hg x
        rw [h1, hT] at this
        exact lead_unspaces _ hsp this
      have h3 : ((content s).flatMap fun l => indentText c ++ l ++ ['\n']) ++ indentText c =
          indentText c ++ (T ++ ('\n' :: indentText c)) := by
        have : Kdl.indented (indentText c) (content s) ++ indentText c = indentText c ++ (T ++ ('\n' :: indentText c)) := by
          rw [h1, hT]
          simp
        exact this
      rw [h3, trim_between hws ?_ htr]
      · exact hg'
      · intro z hz
        rcases List.mem_cons.mp hz with rfl | hz
        · decide
        · exact hws z hz

omit [FloatIO] in
theorem writeLines_lead [FloatIO] {ls : List Str} (h : ∀ l ∈ ls, ∀ x, Text .lead x (l ++ ['\n'])) : ∀ x, Text .lead x (writeLines ls) := by
  induction ls with
  | nil => exact fun _ => .leadNil
  | cons l ls ih =>
    rw [writeLines]
    exact leadAll_append (h l (by simp)) (ih fun k hk => h k (by simp [hk]))

/-- What the formatter puts behind the last node. -/
theorem Spec.Orderly.trailing {nc : Bool} {s : Str} (h : Orderly s) : ∀ x, Text .lead x (autoformatTrailing nc s) := by
  rcases h with ⟨r, h⟩ | h
  · exact fun x => lead_space (autoTrailing_lspace h x)
  · unfold autoformatTrailing
    split
    · next he => rw [List.isEmpty_iff.mp he]; exact fun _ => .leadNil
    · simp only
      split
      · refine leadAll_append ?_ (writeLines_lead fun l hl x => ?_)
        · split
          · exact spaces_lead (by simp; decide)
          · exact fun _ => .leadNil
        · obtain ⟨b, hb, hm⟩ := lines_pieces _ l hl
          exact h.trim _ hm [] l b rfl (by simp [AllBlank]) hb x
      · exact fun _ => .leadNil

end

end Kdl
