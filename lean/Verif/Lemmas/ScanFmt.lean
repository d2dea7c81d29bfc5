import Verif.Lemmas.Parser.Scan
import Verif.Lemmas.V2Text
import Verif.Lemmas.Text
/-
What the formatter does to white space and comments is read like the original.
-/

namespace Kdl
open Spec

/-! ### White space at the ends of lines -/

theorem step_ws {q p : Scan} {x : Char} (hx : Blank x) (h : q.step false x = some p) : p.step false '\n' = q.step false '\n' := by
  have hnl : Scan.stepBase false '\n' = some .base := by decide
  have h1 : x ≠ '/' := by rintro rfl; revert hx; decide
  have h2 : x ≠ '*' := by rintro rfl; revert hx; decide
  have h3 : x ≠ '\\' := by rintro rfl; revert hx; decide
  have hb : ∀ {p}, Scan.stepBase false x = some p → p = .base := by
    intro p h
    simp only [Scan.stepBase, h1, h3, if_false, Bool.false_eq_true] at h
    split at h
    · exact (Option.some.inj h).symm
    · split at h
      · exact (Option.some.inj h).symm
      · cases h
  cases q with
  | base => rw [hb h]
  | cr =>
    simp only [Scan.step] at h
    split at h
    · rw [← Option.some.inj h]; exact hnl
    · rw [hb h]; exact hnl
  | esc =>
    have e : Scan.esc.step false '\n' = some .base := by decide
    rw [e]
    simp only [Scan.step, h1, if_false] at h
    split at h
    · rw [← Option.some.inj h]; exact e
    · split at h
      · rw [← Option.some.inj h]; rfl
      · split at h
        · rw [← Option.some.inj h]; exact hnl
        · cases h
  | line =>
    have e : Scan.line.step false '\n' = some .base := by decide
    rw [e]
    simp only [Scan.step] at h
    split at h
    · rw [← Option.some.inj h]; rfl
    · split at h
      · rw [← Option.some.inj h]; exact hnl
      · rw [← Option.some.inj h]; exact e
  | slash e =>
    simp [Scan.step, h1, h2] at h
  | block k n e =>
    simp only [Scan.step, h1, h2, false_and, if_false, Mark.of_plain h2 h1] at h
    rw [← Option.some.inj h]
    simp [Scan.step]

theorem run_ws {w : Str} (hw : AllWs w) : ∀ {q p : Scan}, q.run false w = some p → p.step false '\n' = q.step false '\n' := by
  induction w with
  | nil => rintro q p ⟨⟩; rfl
  | cons x w ih =>
    intro q p h
    rw [Scan.run] at h
    cases h1 : q.step false x with
    | none => rw [h1] at h; cases h
    | some q1 =>
      rw [h1] at h
      rw [ih (fun c hc => hw c (List.mem_cons_of_mem _ hc)) h, step_ws (isWhitespace_blank (hw x (by simp))) h1]

/-- The states at the start of a line. -/
def Scan.Start (q : Scan) : Prop := q = .base ∨ ∃ n e, q = .block .plain n e

theorem start_ws {q : Scan} (hq : q.Start) {w : Str} (hw : AllWs w) : q.run false w = some q := by
  induction w with
  | nil => rfl
  | cons x w ih =>
    have hx := isWhitespace_blank (hw x (by simp))
    have h1 : x ≠ '/' := by rintro rfl; revert hx; decide
    have h2 : x ≠ '*' := by rintro rfl; revert hx; decide
    have : q.step false x = some q := by
      rcases hq with rfl | ⟨n, e, rfl⟩
      · rcases hx with hx | hx
        · simp [Scan.step, Scan.stepBase, hx]
        · by_cases hs : Space x <;> simp [Scan.step, Scan.stepBase, hx, hs]
      · simp [Scan.step, h1, h2, Mark.of_plain h2 h1]
    rw [Scan.run, this, Option.bind_some]
    exact ih fun c hc => hw c (List.mem_cons_of_mem _ hc)

theorem start_nl {q p : Scan} (h : q.step false '\n' = some p) : p.Start := by
  have hnl : Scan.stepBase false '\n' = some .base := by decide
  cases q with
  | base => left; exact Option.some.inj (h.symm.trans hnl)
  | cr => left; exact Option.some.inj (h.symm.trans rfl)
  | esc => left; exact Option.some.inj (h.symm.trans (by decide))
  | line => left; exact Option.some.inj (h.symm.trans (by decide))
  | slash e => simp [Scan.step] at h
  | block k n e =>
    right
    simp only [Scan.step, show ¬ ('\n' = '/') by decide, show ¬ ('\n' = '*') by decide, false_and, if_false] at h
    exact ⟨n, e, (Option.some.inj h).symm⟩

theorem start_self {q : Scan} (hq : q.Start) : q.step false '\n' = some q := by
  rw [← Scan.run_one]
  exact start_ws hq (by decide)

theorem run_split {z : Bool} {q p : Scan} {a b : Str} (h : q.run z (a ++ b) = some p) :
    ∃ q1, q.run z a = some q1 ∧ q1.run z b = some p := by
  rw [Scan.run_append] at h
  cases h1 : q.run z a with
  | none => rw [h1] at h; cases h
  | some q1 => rw [h1] at h; exact ⟨q1, rfl, h⟩

theorem run_join {z : Bool} {q q1 : Scan} {a b : Str} (h : q.run z a = some q1) : q.run z (a ++ b) = q1.run z b := by
  rw [Scan.run_append, h, Option.bind_some]

/-! ### Leading text -/

/-- The lines of a text, indented and trimmed. -/
def indented (ind : Str) (ls : List Str) : Str := ls.flatMap fun l => ind ++ l ++ ['\n']

theorem scan_oneLine {ind l : Str} (hi : AllWs ind) {q p : Scan} (hq : q.Start) (h : q.run false l = some p) :
    q.run false (indented ind (if trim l = [] then [] else [trim l])) = p.step false '\n' := by
  by_cases ht : trim l = []
  · rw [if_pos ht]
    have hw := (trim_eq_nil_iff l).mp ht
    rw [start_ws hq hw] at h
    cases h
    exact (start_self hq).symm
  · rw [if_neg ht]
    obtain ⟨w, w', hw, hw', e, _⟩ := trim_decomp l
    rw [e, List.append_assoc] at h
    obtain ⟨q1, h1, h⟩ := run_split h
    rw [start_ws hq hw] at h1
    cases h1
    obtain ⟨q2, h2, h3⟩ := run_split h
    simp only [indented, List.flatMap_cons, List.flatMap_nil, List.append_nil]
    rw [List.append_assoc, run_join (start_ws hq hi), run_join h2, Scan.run_one]
    exact (run_ws hw' h3).symm

theorem scan_content {ind : Str} (hi : AllWs ind) : ∀ (n : Nat) {s : Str}, s.length = n → ∀ {q p : Scan}, q.Start →
    q.run false s = some p → (p.step false '\n').isSome = true →
    q.run false (indented ind (content s)) = p.step false '\n' := by
  intro n
  induction n using Nat.strongRecOn with
  | ind n ih =>
    intro s hn q p hq h hp
    rcases first_line s with h' | ⟨l, r, rfl, hl⟩
    · rw [content_last _ h']
      exact scan_oneLine hi hq h
    · rw [content_line _ _ hl]
      obtain ⟨q1, h1, h⟩ := run_split h
      rw [Scan.run] at h
      cases h2 : q1.step false '\n' with
      | none => rw [h2] at h; cases h
      | some q2 =>
        rw [h2, Option.bind_some] at h
        have e := scan_oneLine hi hq h1
        rw [h2] at e
        have : indented ind ((if trim l = [] then [] else [trim l]) ++ content r) =
          indented ind (if trim l = [] then [] else [trim l]) ++ indented ind (content r) := by simp [indented]
        rw [this, run_join e]
        exact ih r.length (by rw [← hn]; simp; omega) rfl (start_nl h2) h hp

theorem ready_nl {r : Str} {q : Scan} (h : q.Ready r) : q.step false '\n' = some .base := by
  rcases h with rfl | rfl | ⟨_, rfl | rfl⟩ <;> decide

theorem space_isWhitespace {c : Char} (h : Space c) : isWhitespace c = true := by
  revert h
  unfold Space isWhitespace spaceCodes
  simp only [List.mem_cons, List.not_mem_nil, or_false]
  intro h
  simp
  omega

theorem indentText_allWs {c : FormatConfig} (hi : ∀ x ∈ c.indent, Space x) : AllWs (indentText c) :=
  indentText_ws c fun x hx => space_isWhitespace (hi x hx)

theorem indented_last {ind : Str} (ls : List Str) : (indented ind ls).getLast? ≠ some '\r' := by
  rcases List.eq_nil_or_concat ls with rfl | ⟨ls, l, rfl⟩
  · simp [indented]
  · simp [indented]

/-- What the formatter puts in front of a node. -/
theorem scan_autoLeading {c : FormatConfig} (hi : ∀ x ∈ c.indent, Space x) {s r : Str} (h : LSpace r s) :
    Scan.base.run false (autoformatLeading c s) = some .base ∧ (autoformatLeading c s).getLast? ≠ some '\r' := by
  obtain ⟨q, h1, h2⟩ := h.scan
  have hws := indentText_allWs hi
  rw [autoformatLeading_eq]
  constructor
  · split
    · exact start_ws (.inl rfl) hws
    · have := scan_content hws _ rfl (.inl rfl) h1 (by rw [ready_nl h2]; rfl)
      rw [ready_nl h2] at this
      rw [show (content s).flatMap (fun l => indentText c ++ l ++ ['\n']) = indented (indentText c) (content s) from rfl, run_join this]
      exact start_ws (.inl rfl) hws
  · rw [List.getLast?_append]
    have h3 : ∀ x, (indentText c).getLast? = some x → x ≠ '\r' := by
      rintro x hx rfl
      have := List.mem_of_getLast? hx
      unfold indentText at this
      obtain ⟨l, hl, hx⟩ := List.mem_flatten.mp this
      rw [(List.mem_replicate.mp hl).2] at hx
      exact absurd (hi _ hx) (by decide)
    cases h4 : (indentText c).getLast? with
    | some x => simpa using h3 x h4
    | none =>
      split
      · simp
      · exact indented_last _

theorem autoLeading_lspace {c : FormatConfig} (hi : ∀ x ∈ c.indent, Space x) {s r : Str} (h : LSpace r s) (x : Str) :
    LSpace x (autoformatLeading c s) :=
  scan_lspace (scan_autoLeading hi h).2 (scan_autoLeading hi h).1 x

/-- The text in front of the first node of a block. -/
theorem trim_lspace {s : Str} (h : Scan.base.run false s = some .base) (x : Str) : LSpace x (trim s ++ ['\n']) := by
  refine scan_lspace (z := false) (by simp) ?_ x
  obtain ⟨w, w', hw, hw', e, _⟩ := trim_decomp s
  rw [e, List.append_assoc] at h
  obtain ⟨q1, h1, h⟩ := run_split h
  rw [start_ws (.inl rfl) hw] at h1
  cases h1
  obtain ⟨q2, h2, h3⟩ := run_split h
  rw [run_join h2, Scan.run_one, ← run_ws hw' h3]
  decide

/-! ### Text after nodes -/

theorem step_crlf {z : Bool} {p p1 q : Scan} (h1 : p.step z '\r' = some p1) (h2 : p1.step z '\n' = some q) :
    p.step z '\n' = some q := by
  have a1 : ¬ Space '\r' := by decide
  have a2 : ¬ Space '\n' := by decide
  have a3 : Newline '\r' := by decide
  have a4 : Newline '\n' := by decide
  cases z <;> cases p <;>
    simp [Scan.step, Scan.stepBase, a1, a2, a3, a4, Mark.of] at h1 ⊢ <;> subst h1 <;>
    simpa [Scan.step, Scan.stepBase, a2, a4, Mark.of] using h2

theorem stripCr_run {z : Bool} {q p : Scan} {l : Str} (h : q.run z (l ++ ['\n']) = some p) : q.run z (stripCr l ++ ['\n']) = some p := by
  unfold stripCr
  split
  · next t ht =>
    have e : l = t.reverse ++ ['\r'] := by simpa using congrArg List.reverse ht
    rw [e] at h
    obtain ⟨q1, h1, h2⟩ := run_split h
    obtain ⟨q2, h3, h4⟩ := run_split h1
    rw [Scan.run_one] at h2 h4
    rw [run_join h3, Scan.run_one]
    exact step_crlf h4 h2
  · exact h

theorem scan_writeLines {z : Bool} : ∀ (n : Nat) {d : Str}, d.length = n → ∀ {q p : Scan}, d ≠ [] → (∀ r, d ≠ r ++ ['\n']) →
    q.run z d = some p → ∃ v, writeLines (lines d) = v ++ ['\n'] ∧ q.run z v = some p ∧ v.getLast? = d.getLast? := by
  intro n
  induction n using Nat.strongRecOn with
  | ind n ih =>
    intro d hn q p hne hlast h
    rcases first_line d with h' | ⟨l, r, rfl, hl⟩
    · rw [lines_last d h' hne]
      exact ⟨d, by simp [writeLines], h, rfl⟩
    · rw [lines_line l r hl]
      have hr : r ≠ [] := by rintro rfl; exact hlast l rfl
      have hrl : ∀ q, r ≠ q ++ ['\n'] := by
        rintro q rfl; exact hlast (l ++ '\n' :: q) (by simp)
      have e : l ++ '\n' :: r = (l ++ ['\n']) ++ r := by simp
      rw [e] at h
      obtain ⟨q1, h1, h2⟩ := run_split h
      obtain ⟨v, e1, h3, h4⟩ := ih r.length (by rw [← hn]; simp; omega) rfl hr hrl h2
      refine ⟨stripCr l ++ ['\n'] ++ v, ?_, ?_, ?_⟩
      · rw [writeLines, e1]; simp
      · rw [run_join (stripCr_run h1)]; exact h3
      · have hv : v.getLast? = r.getLast? := h4
        rw [e]
        cases h5 : r.getLast? with
        | none => exact absurd (List.getLast?_eq_none_iff.mp h5) hr
        | some x =>
          rw [List.getLast?_append, hv, h5, List.getLast?_append (l := l ++ ['\n']), h5]
          rfl

theorem trim_last {s : Str} (h : trim s ≠ []) : (∀ r, trim s ≠ r ++ ['\n']) ∧ (trim s).getLast? ≠ some '\r' := by
  rcases trim_trimmed s with h' | ⟨_, ⟨d, q, h2, hd⟩⟩
  · exact absurd h' h
  · rw [h2]
    constructor
    · intro r hr
      have := List.append_inj_right' hr rfl
      simp only [List.cons.injEq, and_true] at this
      rw [this] at hd; simp [isWs_nl] at hd
    · simp only [List.getLast?_append, List.getLast?_singleton, Option.some_or, ne_eq, Option.some.injEq]
      rintro rfl
      simp [isWs_cr] at hd

/-- What the formatter puts after the last node. -/
theorem scan_autoTrailing {nc : Bool} {s r : Str} (h : LSpace r s) :
    Scan.base.run false (autoformatTrailing nc s) = some .base ∧ (autoformatTrailing nc s).getLast? ≠ some '\r' := by
  obtain ⟨q, h1, h2⟩ := h.scan
  unfold autoformatTrailing
  split
  · next he => rw [List.isEmpty_iff.mp he]; exact ⟨rfl, by simp⟩
  · simp only [Bool.and_eq_true, Bool.not_eq_true', List.isEmpty_eq_false_iff, trimStart_trim, if_true]
    split
    · next ht =>
      obtain ⟨w, w', hw, hw', e, _⟩ := trim_decomp s
      rw [e, List.append_assoc] at h1
      obtain ⟨q1, h3, h1⟩ := run_split h1
      rw [start_ws (.inl rfl) hw] at h3
      cases h3
      obtain ⟨q2, h4, h5⟩ := run_split h1
      obtain ⟨v, e1, h6, _⟩ := scan_writeLines _ rfl ht.1 (trim_last ht.1).1 h4
      rw [e1]
      refine ⟨?_, by rw [← List.append_assoc, List.getLast?_append]; simp⟩
      rw [run_join (start_ws (.inl rfl) (by decide)), run_join h6, Scan.run_one, ← run_ws hw' h5, ready_nl h2]
    · exact ⟨rfl, by simp⟩

theorem autoTrailing_lspace {nc : Bool} {s r : Str} (h : LSpace r s) (x : Str) : LSpace x (autoformatTrailing nc s) :=
  scan_lspace (scan_autoTrailing h).2 (scan_autoTrailing h).1 x

theorem strict_ws {w : Str} (hw : AllWs w) {q : Scan} (h : Scan.base.run true w = some q) : q = .base := by
  induction w with
  | nil => cases h; rfl
  | cons x w ih =>
    rw [Scan.run] at h
    have hx := isWhitespace_blank (hw x (by simp))
    by_cases hs : Space x
    · simp only [Scan.step, Scan.stepBase, hs, if_true, Option.bind_some] at h
      exact ih (fun c hc => hw c (List.mem_cons_of_mem _ hc)) h
    · have hn : Newline x := hx.resolve_left hs
      simp [Scan.step, Scan.stepBase, hs, hn] at h

theorem cr_last {z : Bool} {q : Scan} {d : Str} (hd : d ≠ []) (h : q.run z d = some .cr) : d.getLast? = some '\r' := by
  rcases List.eq_nil_or_concat d with rfl | ⟨d, c, rfl⟩
  · exact absurd rfl hd
  · rw [List.concat_eq_append] at h ⊢
    obtain ⟨q1, h1, h2⟩ := run_split h
    rw [Scan.run_one] at h2
    rw [List.getLast?_append]
    have hb : Scan.stepBase z c ≠ some .cr := by
      unfold Scan.stepBase
      split
      · simp
      · split
        · split <;> simp
        · split
          · simp
          · split <;> simp
    suffices c = '\r' by simp [this]
    cases q1 with
    | base => exact absurd h2 hb
    | cr =>
      simp only [Scan.step] at h2
      split at h2
      · cases h2
      · exact absurd h2 hb
    | esc =>
      simp only [Scan.step] at h2
      split at h2
      · cases h2
      · split at h2
        · assumption
        · split at h2
          · cases h2
          · split at h2 <;> cases h2
    | line =>
      simp only [Scan.step] at h2
      split at h2
      · assumption
      · split at h2 <;> cases h2
    | slash e =>
      simp only [Scan.step] at h2
      split at h2
      · cases h2
      · split at h2 <;> cases h2
    | block k n e =>
      simp only [Scan.step] at h2
      split at h2
      · cases n with
        | zero => cases e <;> cases h2
        | succ n => cases h2
      · split at h2 <;> cases h2

theorem block_ws {z : Bool} {w : Str} (hw : AllWs w) : ∀ {k : Mark} {n : Nat} {e : Bool} {p : Scan},
    (Scan.block k n e).run z w = some p → ∃ k', p = .block k' n e := by
  induction w with
  | nil => rintro k n e p ⟨⟩; exact ⟨k, rfl⟩
  | cons x w ih =>
    intro k n e p h
    have hx := isWhitespace_blank (hw x (by simp))
    have h1 : x ≠ '/' := by rintro rfl; revert hx; decide
    have h2 : x ≠ '*' := by rintro rfl; revert hx; decide
    rw [Scan.run] at h
    simp only [Scan.step, h1, h2, false_and, if_false, Option.bind_some] at h
    exact ih (fun c hc => hw c (List.mem_cons_of_mem _ hc)) h

/-- What the formatter puts between the last entry of a node and its terminator: node
space, with a line feed after it if there is any comment. That line feed either belongs
to it, or it ends the node. -/
theorem scan_before {nc : Bool} {s r : Str} (h : NSpace r s) :
    ∃ w L, autoformatTrailing nc s ++ ['\n'] = w ++ '\n' :: L ∧ (∀ x, NSpace x w) ∧ (L = [] ∨ L = ['\n']) := by
  obtain ⟨q, h1, h2⟩ := h.scan
  unfold autoformatTrailing
  split
  · next he => rw [List.isEmpty_iff.mp he]; exact ⟨[], [], rfl, fun _ => .nil, .inl rfl⟩
  · simp only [Bool.and_eq_true, Bool.not_eq_true', List.isEmpty_eq_false_iff, trimStart_trim, if_true]
    split
    · next ht =>
      obtain ⟨w, w', hw, hw', e, _⟩ := trim_decomp s
      rw [e, List.append_assoc] at h1
      obtain ⟨q1, h3, h1⟩ := run_split h1
      obtain rfl := strict_ws hw h3
      obtain ⟨p, h4, h5⟩ := run_split h1
      obtain ⟨v, e1, h6, h7⟩ := scan_writeLines _ rfl ht.1 (trim_last ht.1).1 h4
      have hv : v.getLast? ≠ some '\r' := by rw [h7]; exact (trim_last ht.1).2
      have hv0 : v ≠ [] := by
        rintro rfl
        exact ht.1 (List.getLast?_eq_none_iff.mp h7.symm)
      rw [e1]
      have hsp : Scan.base.run true (' ' :: v) = some p := by
        rw [Scan.run, show Scan.base.step true ' ' = some .base by decide, Option.bind_some]; exact h6
      have caseB : p.step true '\n' = some .base →
          ∃ w L, [' '] ++ (v ++ ['\n']) ++ ['\n'] = w ++ '\n' :: L ∧ (∀ x, NSpace x w) ∧ (L = [] ∨ L = ['\n']) := by
        intro hp
        refine ⟨' ' :: v ++ ['\n'], [], by simp, fun x => ?_, .inl rfl⟩
        refine scan_nspace ?_ ?_ x
        · rw [List.getLast?_append]; simp
        · rw [run_join hsp, Scan.run_one, hp]
      cases p with
      | base =>
        refine ⟨' ' :: v, ['\n'], by simp, fun x => ?_, .inr rfl⟩
        refine scan_nspace ?_ hsp x
        rw [List.getLast?_cons]
        cases h8 : v.getLast? with
        | none => decide
        | some x => rw [h8] at hv; simpa using hv
      | esc => exact caseB (by decide)
      | line => exact caseB (by decide)
      | cr => exact absurd (cr_last ht.1 h4) (trim_last ht.1).2
      | slash e =>
        cases w' with
        | nil =>
          cases h5
          rcases h2 with h2 | h2 | ⟨_, h2 | h2⟩ <;> cases h2
        | cons x w' =>
          have hx := isWhitespace_blank (hw' x (by simp))
          have b1 : x ≠ '/' := by rintro rfl; revert hx; decide
          have b2 : x ≠ '*' := by rintro rfl; revert hx; decide
          simp [Scan.run, Scan.step, b1, b2] at h5
      | block k n e =>
        obtain ⟨k', rfl⟩ := block_ws hw' h5
        rcases h2 with h2 | h2 | ⟨_, h2 | h2⟩ <;> cases h2
    · exact ⟨[], [], rfl, fun _ => .nil, .inl rfl⟩

/-! ### Byte order marks -/

/-- At the outermost level, a byte order mark stays in front. -/
theorem scan_bom {c : FormatConfig} (h0 : c.indentLevel = 0) (hn : c.noComments = false) {b : Char} (hb : isWhitespace b = false)
    {s r : Str} (h : LSpace r s) : ∃ y, autoformatLeading c (b :: s) = b :: y ∧ ∀ x, LSpace x y := by
  obtain ⟨q, h1, h2⟩ := h.scan
  have hi : indentText c = [] := by simp [indentText, h0]
  have key : ∀ l : Str, ∃ t w', l = t ++ w' ∧ AllWs w' ∧ trim (b :: l) = b :: t := by
    intro l
    obtain ⟨w, w', hw, hw', e, ht⟩ := trim_decomp (b :: l)
    cases w with
    | cons d w =>
      have : b = d := (List.cons.inj e).1
      have := hw d (by simp)
      simp_all
    | nil =>
      cases hT : trim (b :: l) with
      | nil =>
        rw [hT] at e
        have := hw' b (by rw [show w' = b :: l from e.symm]; simp)
        simp_all
      | cons d t =>
        rw [hT] at e
        obtain ⟨rfl, e2⟩ := List.cons.inj (show b :: l = d :: (t ++ w') from e)
        exact ⟨t, w', e2, hw', rfl⟩
  rw [autoformatLeading_eq, hn, hi, List.append_nil]
  simp only [Bool.false_eq_true, if_false, List.nil_append]
  have one : ∀ {l : Str} {p : Scan}, Scan.base.run false l = some p → ∃ t, trim (b :: l) = b :: t ∧
      Scan.base.run false (t ++ ['\n']) = p.step false '\n' := by
    intro l p hl
    obtain ⟨t, w', e, hw', e'⟩ := key l
    refine ⟨t, e', ?_⟩
    rw [e] at hl
    obtain ⟨q1, h3, h4⟩ := run_split hl
    rw [run_join h3, Scan.run_one]
    exact (run_ws hw' h4).symm
  rcases first_line s with h' | ⟨l, r', rfl, hl⟩
  · have hbn : '\n' ∉ b :: s := by
      simp only [List.mem_cons, not_or]
      exact ⟨by rintro rfl; simp [isWs_nl] at hb, h'⟩
    obtain ⟨t, e, h3⟩ := one h1
    rw [content_last _ hbn, e]
    refine ⟨t ++ ['\n'], by simp, scan_lspace (z := false) (by simp) ?_⟩
    rw [h3, ready_nl h2]
  · have hbn : '\n' ∉ b :: l := by
      simp only [List.mem_cons, not_or]
      exact ⟨by rintro rfl; simp [isWs_nl] at hb, hl⟩
    obtain ⟨q1, h3, h4⟩ := run_split h1
    obtain ⟨t, e, h5⟩ := one h3
    rw [Scan.run] at h4
    cases h6 : q1.step false '\n' with
    | none => rw [h6] at h4; cases h4
    | some q2 =>
      rw [h6, Option.bind_some] at h4
      rw [h6] at h5
      have := scan_content (ind := []) AllWs.nil _ rfl (start_nl h6) h4 (by rw [ready_nl h2]; rfl)
      rw [← List.cons_append, content_line _ _ hbn, e]
      refine ⟨t ++ ['\n'] ++ indented [] (content r'), by simp [indented], scan_lspace (z := false) ?_ ?_⟩
      · rw [List.getLast?_append]
        cases h7 : (indented [] (content r')).getLast? with
        | none => simp
        | some x => have := indented_last (ind := []) (content r'); rw [h7] at this; simpa using this
      · rw [run_join h5, this, ready_nl h2]

end Kdl
