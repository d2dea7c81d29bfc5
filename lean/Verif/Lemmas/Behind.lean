import Verif.Lemmas.ScanFmt
import Verif.Lemmas.V1Back
import Verif.Lemmas.Parser.Breaks
import Verif.Lemmas.Parser.ExactNode
/-
What the formatter makes of slashdashed entries and blocks between the last entry of a
node and its terminator.
-/

namespace Kdl
open Spec

/-! ### Trimming -/

theorem dropWhile_stop {p : Char → Bool} {c : Char} (hc : p c = false) (q : Str) :
    ∀ a : Str, (a ++ c :: q).dropWhile p = a.dropWhile p ++ c :: q
  | [] => by simp [hc]
  | x :: a => by
    simp only [List.cons_append, List.dropWhile_cons]
    split
    · exact dropWhile_stop hc q a
    · rfl

theorem trimStart_stop {c : Char} (hc : isWhitespace c = false) (a q : Str) : trimStart (a ++ c :: q) = trimStart a ++ c :: q :=
  dropWhile_stop hc q a

theorem trimEnd_stop {c : Char} (hc : isWhitespace c = false) (a q : Str) : trimEnd (a ++ c :: q) = a ++ c :: trimEnd q := by
  unfold trimEnd
  rw [List.reverse_append, List.reverse_cons, List.append_assoc, List.singleton_append, dropWhile_stop hc]
  simp

/-- The text ends with a character that is not white space. -/
def Firm (t : Str) : Prop := ∃ q c, t = q ++ [c] ∧ isWhitespace c = false

theorem Firm.app {a b : Str} (h : Firm b) : Firm (a ++ b) := by
  obtain ⟨q, c, rfl, hc⟩ := h
  exact ⟨a ++ q, c, by simp, hc⟩

theorem Firm.cons {a : Char} {b : Str} (h : Firm b) : Firm (a :: b) := h.app (a := [a])

theorem Firm.all {t : Str} (hne : t ≠ []) (h : ∀ c ∈ t, isWhitespace c = false) : Firm t := by
  rcases List.eq_nil_or_concat t with rfl | ⟨q, c, rfl⟩
  · exact absurd rfl hne
  · exact ⟨q, c, by simp, h c (by simp)⟩

theorem Firm.trimEnd {t : Str} (h : Firm t) (v : Str) : trimEnd (t ++ v) = t ++ trimEnd v := by
  obtain ⟨q, c, rfl, hc⟩ := h
  rw [List.append_assoc, List.singleton_append, trimEnd_stop hc]
  simp

/-! ### Values and entries -/

theorem digit_firm {r : Nat} {c : Char} (h : IsDigit r c) : isWhitespace c = false := by
  rw [Bool.eq_false_iff]
  intro hw
  obtain ⟨d, h, _⟩ := h
  have h : (digit c).isSome = true := by rw [h]; rfl
  rcases isWhitespace_blank hw with hc | hc
  all_goals
    revert h
  · have hc : c.toNat ∈ spaceCodes := hc
    have : c ∈ spaceCodes.map Char.ofNat := List.mem_map.mpr ⟨_, hc, by simp⟩
    have hall : ∀ c ∈ spaceCodes.map Char.ofNat, ¬ (digit c).isSome = true := by decide
    exact hall c this
  · have hc : c.toNat ∈ newlineCodes := hc
    have : c ∈ newlineCodes.map Char.ofNat := List.mem_map.mpr ⟨_, hc, by simp⟩
    have hall : ∀ c ∈ newlineCodes.map Char.ofNat, ¬ (digit c).isSome = true := by decide
    exact hall c this

theorem digits_firm {n : Nat} {d : Char} {t : Str} (hd : IsDigit n d) (h : ∀ x ∈ t, x = '_' ∨ IsDigit n x) : Firm (d :: t) := by
  refine Firm.all (by simp) fun c hc => ?_
  rcases List.mem_cons.mp hc with rfl | hc
  · exact digit_firm hd
  · rcases h c hc with rfl | h
    · decide
    · exact digit_firm h

theorem group_firm {t : Str} (h : Group t) : Firm t := by
  obtain ⟨c, t, rfl, h1, h2, _⟩ := h
  exact digits_firm h1 h2

theorem hashes_firm (n : Nat) : Firm (hashes (n + 1)) :=
  Firm.all (by simp [hashes]) (by intro c hc; simp [hashes] at hc; subst hc; decide)

theorem strText_firm {t v : Str} (h : StrText t v) : Firm t := by
  cases h with
  | bare h => exact Firm.all h.1 fun c hc => (identChar_white (h.2.1 c hc)).1
  | quoted h => exact Firm.cons (Firm.app ⟨[], '"', rfl, by decide⟩)
  | multi h0 h1 h => exact Firm.cons (Firm.cons (Firm.cons (Firm.app (Firm.app ⟨['"', '"'], '"', rfl, by decide⟩))))
  | raw h => exact Firm.app (Firm.cons (Firm.app (Firm.cons (hashes_firm _))))
  | rawMulti h0 h1 h h2 =>
    exact Firm.app (Firm.cons (Firm.cons (Firm.cons (Firm.app (Firm.app (Firm.cons (Firm.cons (Firm.cons (hashes_firm _)))))))))

section
variable [FloatIO]

theorem numText_firm {t : Str} {v : Value} (h : NumText t v) : Firm t := by
  cases h with
  | int h =>
    obtain ⟨sg, k, pre, rx, d, ds, h1, h2, h3, h4, rfl, _⟩ := h
    exact Firm.app (digits_firm h3 h4)
  | float h =>
    obtain ⟨sg, k, ip, fp, ex, h1, h2, h3, h4, h5, rfl⟩ := h
    refine Firm.app (Firm.app ?_)
    rcases h4 with rfl | ⟨e, es, k', ds, h4, _, h6, rfl⟩
    · rcases h3 with rfl | ⟨ds, h3, rfl⟩
      · simp at h5
      · rw [List.append_nil]; exact Firm.cons (group_firm h3)
    · exact Firm.app (Firm.cons (Firm.app (group_firm h6)))

omit [FloatIO] in
theorem keyword_firm {t : Str} {v : Value} (h : (t, v) ∈ keywords) : Firm t := by
  have : ∀ p ∈ keywords, p.1 ≠ [] ∧ ∀ c ∈ p.1, isWhitespace c = false := by decide
  exact Firm.all (this _ h).1 (this _ h).2

theorem valText_firm {t : Str} {v : Value} (h : ValText t v) : Firm t := by
  cases h with
  | str h => exact strText_firm h
  | num h => exact numText_firm h
  | keyword h => exact keyword_firm h

theorem entryEnd_firm {k : Bool} {d : SEntry Value} {t : Str} (h : EntryEnd k d t) : Firm t := by
  cases h with
  | arg _ hv => exact Firm.app (valText_firm hv.text)
  | prop _ _ _ _ hv => exact Firm.app (Firm.app (Firm.cons (Firm.app (Firm.app (valText_firm hv.text)))))

theorem sdEnd_firm {k : Bool} {S : Str} (h : SdEnd k S) : Firm S := by
  induction h with
  | one hb hE => exact Firm.cons (Firm.cons (Firm.app (entryEnd_firm hE)))
  | nest hb hS hw hne hE _ => exact Firm.cons (Firm.cons (Firm.app (Firm.app (Firm.app (entryEnd_firm hE)))))
  | cons hb hE hw hne hT ih => exact Firm.cons (Firm.cons (Firm.app (Firm.app (Firm.app ih))))
  | nestCons hb hS hv hne' hE hw hne hT _ ih =>
    exact Firm.cons (Firm.cons (Firm.app (Firm.app (Firm.app (Firm.app (Firm.app ih))))))

theorem sdEnd_entries {k : Bool} {S : Str} (h : SdEnd k S) : SdEntries S := by
  induction h with
  | one hb hE => exact .one hb hE.entry
  | nest hb hS hw hne hE _ => exact .nest hb hS hw hne hE.entry
  | cons hb hE hw hne hT ih => exact .cons hb hE hw hne ih
  | nestCons hb hS hv hne' hE hw hne hT _ ih => exact .nestCons hb hS hv hne' hE hw hne ih

theorem blocks_firm {c : Cat} {r C : Str} (h : Text c r C) : c = .blocks → Firm C := by
  induction h with
  | blocksOne hb hD => exact fun _ => Firm.cons (Firm.cons (Firm.app (Firm.cons (Firm.app ⟨[], '}', rfl, by decide⟩))))
  | blocksCons hb hD hw hne hT _ ih =>
    exact fun _ => Firm.cons (Firm.cons (Firm.app (Firm.cons (Firm.app (Firm.cons (Firm.app (ih rfl)))))))
  | _ => exact fun e => by cases e

theorem blocks_front {r C : Str} (h : Text .blocks r C) : ∃ q, C = '/' :: q := by
  cases h <;> exact ⟨_, rfl⟩

theorem slash_head {k : Bool} {S : Str} (h : SdEnd k S) : ∃ q, S = '/' :: q := by
  obtain ⟨q, e⟩ := h.slash
  exact ⟨_, e⟩

/-! ### Node space -/

omit [FloatIO] in
theorem nspace_trimStart {r w : Str} (h : NSpace r w) : NSpace r (' ' :: trimStart w) := by
  have : NSpace r (trimStart w) := by
    induction h with
    | nil => exact .nil
    | space h1 _ ih => rw [trimStart, List.dropWhile_cons, if_pos (space_isWhitespace h1)]; exact ih
    | comment ha h _ =>
      rw [show trimStart ('/' :: '*' :: _) = '/' :: '*' :: _ from dropWhile_of_head _ (by decide)]; exact .comment ha h
    | cont hb hm h _ =>
      rw [show trimStart ('\\' :: _) = '\\' :: _ from dropWhile_of_head _ (by decide)]; exact .cont hb hm h
  exact .space (by decide) this

omit [FloatIO] in
theorem nspace_blank {r w : Str} (h : NSpace r w) : ∀ c ∈ w.takeWhile isWhitespace, Space c := by
  induction h with
  | nil => simp
  | space h1 _ ih =>
    rw [List.takeWhile_cons, if_pos (space_isWhitespace h1)]
    intro c hc
    rcases List.mem_cons.mp hc with rfl | hc
    · exact h1
    · exact ih c hc
  | comment => rw [List.takeWhile_cons, if_neg (by decide)]; simp
  | cont => rw [List.takeWhile_cons, if_neg (by decide)]; simp

omit [FloatIO] in
theorem nspace_spaces {r w : Str} (h : NSpace r w) : ∀ {s : Str}, (∀ c ∈ s, Space c) → NSpace r (s ++ w)
  | [], _ => h
  | c :: _, hs => .space (hs c (by simp)) (nspace_spaces h fun d hd => hs d (List.mem_cons_of_mem _ hd))

omit [FloatIO] in
theorem autoTrailing_whole {s : Str} (hr : '\r' ∉ s) (hs : trim s ≠ []) : autoformatTrailing false s = ' ' :: (trim s ++ ['\n']) := by
  have h0 : s ≠ [] := by rintro rfl; exact hs rfl
  unfold autoformatTrailing
  simp only [List.isEmpty_eq_false_iff.mpr h0, List.isEmpty_eq_false_iff.mpr hs, Bool.false_eq_true, if_false, Bool.not_false,
    Bool.and_self, if_true, trimStart_trim]
  rw [writeLines_lines _ (fun h => hr (trim_subset h)) hs (trim_last hs).1]
  rfl

omit [FloatIO] in
/-- The end of the text before the terminator: with a line feed after it, node space and
a line feed, or node space that ends with that line feed. -/
theorem before_end {v r : Str} (h : NSpace r v) (hr : '\r' ∉ v) :
    ∃ v' L, trimEnd v ++ ['\n', '\n'] = v' ++ '\n' :: L ∧ (∀ x, NSpace x v') ∧ (L = [] ∨ L = ['\n']) := by
  by_cases hv : trim v = []
  · refine ⟨[], ['\n'], ?_, fun _ => .nil, .inr rfl⟩
    have := trimEnd_ws [] v ((trim_eq_nil_iff v).mp hv)
    rw [List.nil_append] at this
    rw [this]; rfl
  · obtain ⟨w, L, e, hw, hL⟩ := scan_before (nc := false) h
    rw [autoTrailing_whole hr hv] at e
    cases w with
    | nil => simp at e
    | cons x w =>
      simp only [List.cons_append, List.cons.injEq] at e
      obtain ⟨rfl, e⟩ := e
      have hw2 : ∀ x, NSpace x w := by
        intro x
        cases hw x with
        | space _ h => exact h
      refine ⟨v.takeWhile isWhitespace ++ w, L, ?_, fun x => nspace_spaces (hw2 x) (nspace_blank h), hL⟩
      have hv2 : trimStart v ≠ [] := by rintro e; exact hv (by rw [trim, e]; rfl)
      obtain ⟨c, q, ec, hc⟩ : ∃ c q, trimStart v = c :: q ∧ isWhitespace c = false := by
        cases hq : trimStart v with
        | nil => exact absurd hq hv2
        | cons c q =>
          refine ⟨c, q, rfl, ?_⟩
          have := List.head_dropWhile_not isWhitespace (w := hv2)
          unfold trimStart at hq
          simpa [hq] using this
      have e1 : trimEnd v = v.takeWhile isWhitespace ++ trim v := by
        conv => lhs; rw [← List.takeWhile_append_dropWhile (p := isWhitespace) (l := v)]
        rw [trim, show v.dropWhile isWhitespace = c :: q from ec, ec, trimEnd_stop hc, ← List.nil_append (c :: q), trimEnd_stop hc]
        rfl
      rw [e1, List.append_assoc, List.append_assoc, ← e]
      simp

omit [FloatIO] in
theorem before_form {p S v r : Str} (hS : ∃ q, S = '/' :: q) (hs : Firm S) (hv : NSpace r v) (hr : '\r' ∉ p ++ (S ++ v)) :
    ∃ v' L, autoformatTrailing false (p ++ (S ++ v)) ++ ['\n'] = ' ' :: trimStart p ++ (S ++ v') ++ '\n' :: L ∧
      (∀ x, NSpace x v') ∧ (L = [] ∨ L = ['\n']) := by
  obtain ⟨q, rfl⟩ := hS
  have ht : trim (p ++ ('/' :: q ++ v)) = trimStart p ++ ('/' :: q ++ trimEnd v) := by
    rw [trim, List.cons_append, trimStart_stop (by decide), ← List.cons_append, ← List.append_assoc, (hs.app).trimEnd, List.append_assoc]
  obtain ⟨v', L, e, h1, h2⟩ := before_end hv (fun h => hr (by simp [h]))
  refine ⟨v', L, ?_, h1, h2⟩
  rw [autoTrailing_whole hr (by rw [ht]; simp), ht]
  have : ' ' :: trimStart p ++ ('/' :: q ++ v') ++ '\n' :: L = ' ' :: trimStart p ++ ('/' :: q ++ (v' ++ '\n' :: L)) := by simp
  rw [this, ← e]
  simp

/-! ### The text before the terminator -/

/-- Slashdashed entries and blocks before the terminator are written as they are. -/
theorem mid_before {nc : Bool} {k : Bool} {r w : Str} (h : Text (.mid k) r w) (hr : '\r' ∉ w) :
    ∃ w' L, autoformatTrailing nc w ++ ['\n'] = w' ++ '\n' :: L ∧ (∀ x, Text (.mid false) x w') ∧ (L = [] ∨ L = ['\n']) := by
  have hn : nc = true → ∃ w' L, autoformatTrailing nc w ++ ['\n'] = w' ++ '\n' :: L ∧ (∀ x, Text (.mid false) x w') ∧
      (L = [] ∨ L = ['\n']) := by
    rintro rfl
    refine ⟨[], [], ?_, fun _ => .midSpace .nil, .inl rfl⟩
    unfold autoformatTrailing
    split
    · next h => rw [List.isEmpty_iff.mp h]
    · simp
  cases nc with
  | true => exact hn rfl
  | false =>
    cases h with
    | midSpace h =>
      obtain ⟨w', L, e, h1, h2⟩ := scan_before (nc := false) h
      exact ⟨w', L, e, fun x => .midSpace (h1 x), h2⟩
    | midEntries h1 hne h2 h3 =>
      obtain ⟨v', L, e, g1, g2⟩ := before_form (slash_head h2) (sdEnd_firm h2) h3 hr
      exact ⟨_, L, e, fun x => .midEntries (nspace_trimStart h1) (by simp) h2 (g1 x), g2⟩
    | @midKeyword _ p S h1 hne h2 =>
      obtain ⟨v', L, e, g1, g2⟩ := before_form (p := p) (v := []) (slash_head h2) (sdEnd_firm h2) (.nil (r := []))
        (by simpa using hr)
      rw [List.append_nil] at e
      exact ⟨_, L, e, fun x => .midEntries (nspace_trimStart h1) (by simp) (sdEnd_entries h2) (g1 x), g2⟩
    | midBlocks h1 hne h2 h3 =>
      obtain ⟨v', L, e, g1, g2⟩ := before_form (blocks_front h2) (blocks_firm h2 rfl) h3 hr
      exact ⟨_, L, e, fun x => .midBlocks (nspace_trimStart h1) (by simp) h2 (g1 x), g2⟩
    | @midBoth _ _ p S u C v h1 hne h2 h3 hne' h4 h5 =>
      obtain ⟨q, hq⟩ := h2.slash
      obtain ⟨v', L, e, g1, g2⟩ := before_form (p := p) (S := S ++ (u ++ C)) ⟨_, by rw [hq]; rfl⟩
        (Firm.app (Firm.app (blocks_firm h4 rfl))) h5 (by simpa using hr)
      refine ⟨' ' :: trimStart p ++ (S ++ (u ++ (C ++ v'))), L, ?_, fun x =>
        .midBoth (nspace_trimStart h1) (by simp) h2 h3 hne' h4 (g1 x), g2⟩
      simpa using e

/-- The same after a children block. -/
theorem tail_before {nc : Bool} {w C : Str} (h1 : NSpace C w) (h2 : Text .blocks [] C) (hr : '\r' ∉ w ++ C) :
    ∃ w' L, autoformatTrailing nc (w ++ C) ++ ['\n'] = w' ++ '\n' :: L ∧ (∀ x, Text .tail x w') ∧ (L = [] ∨ L = ['\n']) := by
  cases nc with
  | true =>
    refine ⟨[], [], ?_, fun _ => .tailSpace .nil, .inl rfl⟩
    unfold autoformatTrailing
    split
    · next h => rw [List.isEmpty_iff.mp h]
    · simp
  | false =>
    obtain ⟨v', L, e, g1, g2⟩ := before_form (p := w) (v := []) (blocks_front h2) (blocks_firm h2 rfl) (.nil (r := []))
      (by simpa using hr)
    rw [List.append_nil] at e
    exact ⟨_, L, e, fun x => .tailBlocks (nspace_trimStart h1) h2 (g1 x), g2⟩

end

end Kdl
