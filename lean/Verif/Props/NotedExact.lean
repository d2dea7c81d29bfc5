import Verif.Props.Noted
/-
C84: exactly when the comments of a formatted document are indented like nodes.
-/

namespace Kdl
open Spec

/-! ### Texts and lines -/

theorem line_cut : ∀ {a b x y : Str}, '\n' ∉ a → '\n' ∉ b → a ++ '\n' :: x = b ++ '\n' :: y → a = b ∧ x = y
  | [], [], _, _, _, _, h => ⟨rfl, (List.cons.inj h).2⟩
  | [], c :: b, _, _, _, hb, h => absurd (List.cons.inj h).1 (fun e => hb (List.mem_cons.mpr (Or.inl e)))
  | c :: a, [], _, _, ha, _, h => absurd (List.cons.inj h).1 (fun e => ha (List.mem_cons.mpr (Or.inl e.symm)))
  | c :: a, d :: b, _, _, ha, hb, h => by
    obtain ⟨h1, h2⟩ := List.cons.inj h
    obtain ⟨h3, h4⟩ := line_cut (fun e => ha (List.mem_cons_of_mem _ e)) (fun e => hb (List.mem_cons_of_mem _ e)) h2
    exact ⟨by rw [h1, h3], h4⟩

/-- As many lines on both sides. -/
theorem lines_cut (f : Str → Str) : ∀ {ls : List Str} {x y : Str}, (∀ l ∈ ls, '\n' ∉ l ∧ '\n' ∉ f l) →
    unlines ls ++ x = unlines (ls.map f) ++ y → (∀ l ∈ ls, l = f l) ∧ x = y
  | [], _, _, _, h => ⟨by simp, h⟩
  | l :: ls, x, y, hl, h => by
    rw [List.map_cons, unlines_cons, unlines_cons, List.append_assoc, List.append_assoc, List.cons_append, List.cons_append] at h
    obtain ⟨h1, h2⟩ := line_cut (hl l (by simp)).1 (hl l (by simp)).2 h
    obtain ⟨h3, h4⟩ := lines_cut f (fun m hm => hl m (List.mem_cons_of_mem _ hm)) h2
    exact ⟨fun m hm => (List.mem_cons.mp hm).elim (fun e => e ▸ h1) (h3 m), h4⟩

theorem trim_notLf {l : Str} (h : '\n' ∉ l) : '\n' ∉ trim l := by
  obtain ⟨w, w', _, _, e, _⟩ := trim_decomp l
  intro hm
  exact h (by rw [e]; simp [hm])

theorem deep_notLf {ind : Str} (h : '\n' ∉ ind) (k : Nat) : '\n' ∉ deep ind k := by
  unfold deep
  intro hm
  obtain ⟨x, hx, hm⟩ := List.mem_flatten.mp hm
  rw [List.eq_of_mem_replicate hx] at hm
  exact h hm

/-- Comments begin with something that is not white space. -/
theorem endLines_first {nc : Bool} {t l : Str} {ls : List Str} (h : endLines nc t = l :: ls) : ∃ c r, l = c :: r ∧ isWhitespace c = false := by
  cases nc with
  | true => cases h
  | false =>
    replace h : lines (trim t) = l :: ls := h
    rcases trim_trimmed t with e | ⟨⟨c, r, e, hc⟩, _⟩
    · rw [e] at h; cases h
    rw [e] at h
    rcases exists_line (c :: r) with hn | ⟨l', r', hn, e'⟩
    · rw [lines_last _ hn (by simp)] at h
      cases h
      exact ⟨c, r, rfl, hc⟩
    · rw [e', lines_line _ _ hn] at h
      cases l' with
      | nil =>
        cases e'
        exact absurd hc (by decide)
      | cons d l' =>
        cases e'
        obtain ⟨rfl, _⟩ := List.cons.inj h
        unfold stripCr
        split
        · next t e2 =>
          have : c :: l' = t.reverse ++ ['\r'] := by
            have := congrArg List.reverse e2
            rw [List.reverse_reverse] at this
            rw [this]; simp
          cases ht : t.reverse with
          | nil =>
            rw [ht] at this
            cases this
            exact absurd hc (by decide)
          | cons x y =>
            rw [ht] at this
            cases this
            exact ⟨_, _, rfl, hc⟩
        · exact ⟨_, _, rfl, hc⟩

theorem endLines_notLf {nc : Bool} {t : Str} : ∀ l ∈ endLines nc t, '\n' ∉ l := by
  unfold endLines
  cases nc with
  | true => simp
  | false => exact lines_no_lf _

/-- The text does not go on with an empty line. -/
def NoGap (s : Str) : Prop := ∀ t, s ≠ '\n' :: t

theorem noGap_deep {ind : Str} (hi : '\n' ∉ ind) (k : Nat) {s : Str} (h : NoGap s) : NoGap (deep ind k ++ s) := by
  have := deep_notLf hi k
  cases hd : deep ind k with
  | nil => exact h
  | cons c r =>
    rw [hd] at this
    intro t e
    exact this (by rw [(List.cons.inj e).1]; simp)

theorem noGap_cons {c : Char} {s : Str} (h : c ≠ '\n') : NoGap (c :: s) := fun _ e => h (List.cons.inj e).1

theorem front_noGap {nc : Bool} {ind : Str} (hi : '\n' ∉ ind) (k : Nat) (t : Str) {s : Str} (h : NoGap s) :
    NoGap (unlines (frontLines nc ind k t) ++ s) := by
  unfold frontLines
  have hc := noteLines_clean nc t
  generalize noteLines nc t = N at hc ⊢
  cases N with
  | nil => exact h
  | cons l ls =>
    obtain ⟨h1, h2, h3⟩ := hc l (by simp)
    rw [List.map_cons, unlines_cons, List.append_assoc, List.append_assoc]
    apply noGap_deep hi
    cases l with
    | nil => exact absurd rfl h2
    | cons c l => exact noGap_cons fun e => h3 (List.mem_cons.mpr (Or.inl e.symm))

section
variable [FloatIO]

theorem head_noGap {ind : Str} (hi : '\n' ∉ ind) (k : Nat) (ty : Option Str) (name : Str) (es : List (SEntry Value)) (s : Str) :
    NoGap (layHead id ind k ty name es ++ s) := by
  unfold layHead
  rw [List.append_assoc, List.append_assoc, List.append_assoc]
  apply noGap_deep hi
  cases ty with
  | some t => exact noGap_cons (by decide)
  | none =>
    have h1 : '\n' ∉ plainName name := writeString_notNl name
    cases hp : plainName name with
    | nil =>
      exfalso
      replace hp : writeString name = [] := hp
      unfold writeString at hp
      split at hp
      · next h => subst hp; exact absurd h (by decide)
      · cases hp
    | cons c r =>
      rw [hp] at h1
      exact noGap_cons fun e => h1 (List.mem_cons.mpr (Or.inl e.symm))

theorem last_noGap {nc : Bool} {ind : Str} (hi : '\n' ∉ ind) (k : Nat) (t : Str) {s : Str} (h : NoGap s) :
    NoGap (unlines (NoteStyle.aligned.last ind k (endLines nc t)) ++ s) := by
  have hf := @endLines_first nc t
  cases he : endLines nc t with
  | nil => exact h
  | cons l ls =>
    obtain ⟨c, r, rfl, hc⟩ := hf he
    show NoGap (unlines ((deep ind k ++ trim (c :: r)) :: ls.map (deep ind k ++ trim ·)) ++ s)
    rw [unlines_cons, List.append_assoc, List.append_assoc]
    apply noGap_deep hi
    have hn : '\n' ∉ trim (c :: r) := trim_notLf (endLines_notLf (nc := nc) (t := t) _ (by rw [he]; simp))
    cases ht : trim (c :: r) with
    | nil =>
      have := (trim_eq_nil_iff _).mp ht c (by simp)
      rw [hc] at this; cases this
    | cons d q =>
      rw [ht] at hn
      exact noGap_cons fun e => hn (List.mem_cons.mpr (Or.inl e.symm))

theorem node_noGap {nc : Bool} {q : Ident → Str} {ind : Str} (hi : '\n' ∉ ind) (k : Nat) (n : Node) (s : Str) :
    NoGap (unlines (notedNode .aligned nc q ind k n) ++ s) := by
  obtain ⟨ty, name, es, ch, f, sp⟩ := n
  cases ch with
  | none =>
    rw [notedNode, unlines_append, List.append_assoc]
    apply front_noGap hi
    cases endLines nc ((f.map (·.beforeTerminator)).getD []) with
    | nil =>
      show NoGap (unlines [_] ++ s)
      rw [unlines_cons, List.append_assoc]
      exact head_noGap hi _ _ _ _ _
    | cons l ls =>
      show NoGap (unlines ((_ ++ ' ' :: l) :: _) ++ s)
      rw [unlines_cons, List.append_assoc, List.append_assoc]
      exact head_noGap hi _ _ _ _ _
  | some d =>
    rw [notedNode, unlines_append, unlines_append, List.append_assoc, List.append_assoc]
    apply front_noGap hi
    obtain ⟨ns, f', sp'⟩ := d
    cases ns with
    | nil =>
      rw [notedBlock]
      show NoGap (unlines ((_ :: _) ++ _) ++ _)
      rw [List.cons_append, unlines_cons, List.append_assoc, List.append_assoc]
      exact head_noGap hi _ _ _ _ _
    | cons m ns =>
      rw [notedBlock]
      rw [List.cons_append, List.cons_append, unlines_cons, List.append_assoc, List.append_assoc]
      exact head_noGap hi _ _ _ _ _

theorem nodes_noGap {nc : Bool} {q : Ident → Str} {ind : Str} (hi : '\n' ∉ ind) (k : Nat) (ns : List Node) {s : Str} (h : NoGap s) :
    NoGap (unlines (notedNodes .aligned nc q ind k ns) ++ s) := by
  cases ns with
  | nil => exact h
  | cons n ns =>
    rw [notedNodes, unlines_append, List.append_assoc]
    exact node_noGap hi k n _

/-! ### Where the layouts part -/

omit [FloatIO] in
theorem close_flush {nc : Bool} {ind : Str} (hi : '\n' ∉ ind) {k : Nat} {line t R1 R2 : Str} (hR : NoGap R2)
    (h : unlines (NoteStyle.actual.close line ind k (endLines nc t)) ++ R1 = unlines (NoteStyle.aligned.close line ind k (endLines nc t)) ++ R2) :
    endLines nc t = [] ∧ R1 = R2 := by
  have hl := @endLines_notLf nc t
  cases he : endLines nc t with
  | nil =>
    rw [he] at h
    exact ⟨rfl, List.append_cancel_left h⟩
  | cons l ls =>
    exfalso
    rw [he] at h hl
    replace h : unlines ((line ++ ' ' :: l) :: (ls ++ [[]])) ++ R1 = unlines ((line ++ ' ' :: l) :: ls.map (deep ind k ++ trim ·)) ++ R2 := h
    rw [unlines_cons, unlines_cons, List.append_assoc, List.append_assoc (_ ++ _)] at h
    have h := List.append_cancel_left (by simpa using h : line ++ ' ' :: l ++ '\n' :: (unlines (ls ++ [[]]) ++ R1) =
      line ++ ' ' :: l ++ '\n' :: (unlines (ls.map (deep ind k ++ trim ·)) ++ R2))
    have h := (List.cons.inj h).2
    rw [unlines_append, List.append_assoc] at h
    have h := (lines_cut _ (fun m hm => by
      have := hl m (List.mem_cons_of_mem _ hm)
      refine ⟨this, ?_⟩
      simp only [List.mem_append, not_or]
      exact ⟨deep_notLf hi k, trim_notLf this⟩) h).2
    exact hR _ h.symm

omit [FloatIO] in
theorem last_flush {nc : Bool} {ind : Str} (hi : '\n' ∉ ind) (hw : AllWs ind) {k : Nat} {t R1 R2 : Str}
    (h : unlines (NoteStyle.actual.last ind k (endLines nc t)) ++ R1 = unlines (NoteStyle.aligned.last ind k (endLines nc t)) ++ R2) :
    Flush ind k (endLines nc t) ∧ R1 = R2 := by
  have hl := @endLines_notLf nc t
  have hf := @endLines_first nc t
  cases he : endLines nc t with
  | nil =>
    rw [he] at h
    exact ⟨trivial, h⟩
  | cons l ls =>
    obtain ⟨c, r, rfl, hc⟩ := hf he
    rw [he] at h hl
    replace h : unlines ((' ' :: c :: r) :: ls) ++ R1 = unlines ((deep ind k ++ trim (c :: r)) :: ls.map (deep ind k ++ trim ·)) ++ R2 := h
    rw [unlines_cons, unlines_cons, List.append_assoc, List.append_assoc, List.cons_append, List.cons_append] at h
    have hl0 := hl (c :: r) (by simp)
    have hd := deep_notLf hi k
    obtain ⟨h1, h2⟩ := line_cut (a := ' ' :: c :: r) (b := deep ind k ++ trim (c :: r))
      (by simpa using hl0) (by simpa using ⟨hd, trim_notLf hl0⟩) h
    obtain ⟨h3, h4⟩ := lines_cut _ (fun m hm => by
      have := hl m (List.mem_cons_of_mem _ hm)
      exact ⟨this, by simpa using ⟨hd, trim_notLf this⟩⟩) h2
    have hdw := deep_ws hw k
    have hne : trim (c :: r) ≠ [] := fun e => by
      have := (trim_eq_nil_iff _).mp e c (by simp)
      rw [hc] at this; cases this
    have key : deep ind k = [' '] ∧ trim (c :: r) = c :: r := by
      cases hk : deep ind k with
      | nil =>
        exfalso
        rw [hk] at h1
        rcases trim_trimmed (c :: r) with e | ⟨⟨d, q, e, hd'⟩, _⟩
        · exact hne e
        · rw [e] at h1
          cases (List.cons.inj h1).1
          exact absurd hd' (by decide)
      | cons a b =>
        rw [hk] at h1 hdw
        obtain ⟨e1, e2⟩ := List.cons.inj h1
        subst e1
        cases b with
        | nil => exact ⟨rfl, e2.symm⟩
        | cons x y =>
          exfalso
          have := hdw x (by simp)
          rw [← (List.cons.inj e2).1, hc] at this
          cases this
    refine ⟨⟨key.1, key.2, fun m hm => ?_⟩, h4⟩
    have := h3 m hm
    rwa [key.1] at this

mutual
theorem flushNode {nc : Bool} {q : Ident → Str} {ind : Str} (hi : '\n' ∉ ind) (hw : AllWs ind) : ∀ (k : Nat) (n : Node) (R1 R2 : Str), NoGap R2 →
    unlines (notedNode .actual nc q ind k n) ++ R1 = unlines (notedNode .aligned nc q ind k n) ++ R2 → FlushNode nc ind k n ∧ R1 = R2
  | k, .mk ty name es none f sp, R1, R2, hR, h => by
    rw [notedNode, notedNode, unlines_append, unlines_append, List.append_assoc, List.append_assoc] at h
    obtain ⟨h1, h2⟩ := close_flush hi hR (List.append_cancel_left h)
    exact ⟨⟨h1, trivial⟩, h2⟩
  | k, .mk ty name es (some d) f sp, R1, R2, hR, h => by
    rw [notedNode, notedNode] at h
    simp only [unlines_append, List.append_assoc] at h
    have hg : NoGap (unlines (NoteStyle.aligned.close (deep ind k ++ ['}']) ind k (endLines nc ((f.map (·.beforeTerminator)).getD []))) ++ R2) := by
      cases endLines nc ((f.map (·.beforeTerminator)).getD []) with
      | nil =>
        show NoGap (unlines [_] ++ _)
        rw [unlines_cons, List.append_assoc, List.append_assoc]
        exact noGap_deep hi k (noGap_cons (by decide))
      | cons l ls =>
        show NoGap (unlines ((_ ++ ' ' :: l) :: _) ++ _)
        rw [unlines_cons, List.append_assoc, List.append_assoc, List.append_assoc]
        exact noGap_deep hi k (noGap_cons (by decide))
    obtain ⟨h1, h2⟩ := flushBlock hi hw (k + 1) _ d _ _ hg (List.append_cancel_left h)
    obtain ⟨h3, h4⟩ := close_flush hi hR h2
    exact ⟨⟨h3, h1⟩, h4⟩
theorem flushBlock {nc : Bool} {q : Ident → Str} {ind : Str} (hi : '\n' ∉ ind) (hw : AllWs ind) : ∀ (k : Nat) (first : Str) (d : Document) (R1 R2 : Str),
    NoGap R2 →
    unlines (notedBlock .actual nc q ind k first d) ++ R1 = unlines (notedBlock .aligned nc q ind k first d) ++ R2 →
    FlushOpt nc ind k (some d) ∧ R1 = R2
  | k, first, .mk [] f sp, R1, R2, hR, h => by
    have hc := noteLines_clean nc ((f.map (·.leading)).getD [])
    rw [notedBlock, notedBlock] at h
    rw [FlushOpt]
    cases he : noteLines nc ((f.map (·.leading)).getD []) with
    | nil =>
      rw [he] at h
      exact ⟨rfl, List.append_cancel_left h⟩
    | cons l ls =>
      exfalso
      rw [he] at h hc
      obtain ⟨_, h2, h3⟩ := hc l (by simp)
      replace h : unlines (((first ++ l) :: ls.map (deep ind k ++ ·)) ++ [[]]) ++ R1 =
        unlines ((first :: (l :: ls).map (deep ind k ++ ·)) ++ [[]]) ++ R2 := h
      rw [List.cons_append, List.cons_append, unlines_cons, unlines_cons, List.append_assoc, List.append_assoc, List.append_assoc] at h
      have h := List.append_cancel_left h
      cases l with
      | nil => exact h2 rfl
      | cons c l => exact h3 (by rw [(List.cons.inj h).1]; simp)
  | k, first, .mk (n :: ns) f sp, R1, R2, hR, h => by
    rw [notedBlock, notedBlock] at h
    simp only [List.cons_append, unlines_cons, unlines_append, List.append_assoc] at h
    have h := (List.cons.inj (List.append_cancel_left h)).2
    have hg := last_noGap (nc := nc) hi k ((f.map (·.trailing)).getD []) hR
    obtain ⟨h1, h2⟩ := flushNode hi hw k n _ _ (nodes_noGap hi k ns hg) h
    obtain ⟨h3, h4⟩ := flushNodes hi hw k ns _ _ hg h2
    obtain ⟨h5, h6⟩ := last_flush hi hw h4
    exact ⟨⟨h1, h3, h5⟩, h6⟩
theorem flushNodes {nc : Bool} {q : Ident → Str} {ind : Str} (hi : '\n' ∉ ind) (hw : AllWs ind) : ∀ (k : Nat) (ns : List Node) (R1 R2 : Str), NoGap R2 →
    unlines (notedNodes .actual nc q ind k ns) ++ R1 = unlines (notedNodes .aligned nc q ind k ns) ++ R2 → FlushNodes nc ind k ns ∧ R1 = R2
  | k, [], R1, R2, _, h => ⟨trivial, h⟩
  | k, n :: ns, R1, R2, hR, h => by
    rw [notedNodes, notedNodes, unlines_append, unlines_append, List.append_assoc, List.append_assoc] at h
    obtain ⟨h1, h2⟩ := flushNode hi hw k n _ _ (nodes_noGap hi k ns hR) h
    obtain ⟨h3, h4⟩ := flushNodes hi hw k ns _ _ hR h2
    exact ⟨⟨h1, h3⟩, h4⟩
end

/-! ### Where they agree -/

omit [FloatIO] in
theorem last_of_flush {ind : Str} {k : Nat} {ls : List Str} (h : Flush ind k ls) :
    NoteStyle.actual.last ind k ls = NoteStyle.aligned.last ind k ls := by
  cases ls with
  | nil => rfl
  | cons l ls =>
    obtain ⟨h1, h2, h3⟩ := h
    show (' ' :: l) :: ls = (deep ind k ++ trim l) :: ls.map (deep ind k ++ trim ·)
    rw [h1, h2]
    congr 1
    conv => lhs; rw [← List.map_id ls]
    exact List.map_congr_left fun m hm => h3 m hm

mutual
theorem noted_of_flush {nc : Bool} {q : Ident → Str} {ind : Str} : ∀ (k : Nat) (n : Node), FlushNode nc ind k n →
    notedNode .actual nc q ind k n = notedNode .aligned nc q ind k n
  | k, .mk ty name es none f sp, h => by
    simp only [notedNode, h.1]
    rfl
  | k, .mk ty name es (some d) f sp, h => by
    simp only [notedNode, h.1, notedBlock_of_flush (k + 1) _ d h.2]
    rfl
theorem notedBlock_of_flush {nc : Bool} {q : Ident → Str} {ind : Str} : ∀ (k : Nat) (first : Str) (d : Document), FlushOpt nc ind k (some d) →
    notedBlock .actual nc q ind k first d = notedBlock .aligned nc q ind k first d
  | k, first, .mk [] f sp, h => by
    rw [FlushOpt] at h
    simp only [notedBlock, h]
    rfl
  | k, first, .mk (n :: ns) f sp, h => by
    obtain ⟨h1, h2, h3⟩ := h
    simp only [notedBlock, noted_of_flush k n h1, notedNodes_of_flush k ns h2, last_of_flush h3]
theorem notedNodes_of_flush {nc : Bool} {q : Ident → Str} {ind : Str} : ∀ (k : Nat) (ns : List Node), FlushNodes nc ind k ns →
    notedNodes .actual nc q ind k ns = notedNodes .aligned nc q ind k ns
  | k, [], _ => rfl
  | k, n :: ns, h => by
    rw [notedNodes, notedNodes, noted_of_flush k n h.1, notedNodes_of_flush k ns h.2]
end

/-- **C84**, exactly, for every white-space indent without line feeds and every level: the text of a formatted document
is the aligned layout if and only if no comment is kept between a node and the end of its line or in a block without
nodes, and comments behind the last node of a document or block happen to be indented by one space where one space is
the indentation. -/
theorem C84_exact {s : Str} {d : Document} (h : Document.parse s = .ok d) {c : FormatConfig} (hi : AllWs c.indent) (hl : '\n' ∉ c.indent)
    (hk : c.entryKeep = false) : (d.autoformatConfig c).display =
      unlines (frontLines c.noComments c.indent c.indentLevel ((d.format.map (·.leading)).getD [])) ++ deep c.indent c.indentLevel ++
        unlines (notedBody .aligned c.noComments Ident.display c.indent c.indentLevel d) ↔
    FlushDoc c.noComments c.indent c.indentLevel d := by
  rw [C84_parsed h hi hk, List.append_cancel_left_eq]
  obtain ⟨ns, f, sp⟩ := d
  cases ns with
  | nil => exact iff_of_true rfl trivial
  | cons n ns =>
    rw [notedBody, notedBody, FlushDoc]
    constructor
    · intro h
      rw [unlines_append, unlines_append] at h
      have hg := last_noGap (nc := c.noComments) hl c.indentLevel ((f.map (·.trailing)).getD []) (s := []) (fun _ e => by cases e)
      rw [List.append_nil] at hg
      obtain ⟨h1, h2⟩ := flushNodes hl hi c.indentLevel (n :: ns) _ _ hg h
      refine ⟨h1, (last_flush hl hi (R1 := []) (R2 := []) ?_).1⟩
      rw [h2]
    · rintro ⟨h1, h2⟩
      rw [notedNodes_of_flush c.indentLevel (n :: ns) h1, last_of_flush h2]

/-- With one space as indentation, the comment at the end of the block comes out as it should. -/
theorem C84_exact_example : ∃ d, Document.parse "a {\n b\n // c\n}\n".toList = .ok d ∧ ¬ (∀ ls ∈ besideDoc false d, ls = []) ∧
    (d.autoformatConfig (FormatConfig.builder.setIndent " ".toList)).display = "a {\n b\n // c\n}\n".toList := by
  obtain ⟨d, h, e⟩ := ParseResult.holds_ok
    (r := Document.parse "a {\n b\n // c\n}\n".toList)
    (f := fun d : Document => !(besideDoc false d).all (·.isEmpty) &&
      decide ((d.autoformatConfig (FormatConfig.builder.setIndent " ".toList)).display = "a {\n b\n // c\n}\n".toList)) (by krfl)
  rw [Bool.and_eq_true, Bool.not_eq_true', List.all_eq_false] at e
  obtain ⟨⟨ls, h1, h2⟩, h3⟩ := e
  exact ⟨d, h, fun hn => h2 (by rw [hn ls h1]; rfl), of_decide_eq_true h3⟩

end
end Kdl
