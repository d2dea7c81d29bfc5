import Verif.Lemmas.Parser.Allowed
import Verif.Lemmas.KernelRfl
import Verif.Props.Values
/-
C28-C30, C33, C42: strings and identifiers.
-/

namespace Kdl
open Spec

section
variable [FloatIO]

/-- A string text is accepted by `KdlIdentifier::parse` and by `KdlEntry::parse`,
with the value `v`. -/
def ReadsAs (t v : Str) : Prop :=
  (∃ i, Ident.parse t = .ok i ∧ i.value = v) ∧
  ∃ e, Entry.parse t = .ok e ∧ e.value = .string v ∧ e.name = none ∧ e.ty = none

theorem StrText.reads {t v : Str} (h : StrText t v) : ReadsAs t v := by
  have ht : StrTok v t := fun r hr => stringP_iff.mpr ⟨t, rfl, h, hr⟩
  refine ⟨identParse_iff.mpr ?_, entryParse_tok ht.val⟩
  exact stringP_iff.mpr ⟨t, by simp, h, Ends.nil⟩

/-- The texts accepted by `KdlIdentifier::parse`, and the values they have. -/
theorem identParse_text {t v : Str} : (∃ i, Ident.parse t = .ok i ∧ i.value = v) ↔ StrText t v := by
  rw [identParse_iff, stringP_iff]
  constructor
  · rintro ⟨t', e, h, _⟩
    rw [e, List.append_nil]
    exact h
  · exact fun h => ⟨t, by simp, h, Ends.nil⟩

/-! ### C28 -/

/-- **C28**: a double-quoted text made of plain characters and escapes is a string
whose value is the concatenation of the decoded pieces. -/
theorem C28_quoted {t v : Str} (h : Quoted t v) : ReadsAs ('"' :: (t ++ ['"'])) v :=
  StrText.reads (.quoted h)

/-- **C28**: nothing else is accepted between a single pair of double quotes. -/
theorem C28_only {t : Str} {i : Ident} (h : Ident.parse ('"' :: (t ++ ['"'])) = .ok i)
    (ht : ∀ q, '"' :: (t ++ ['"']) ≠ '"' :: '"' :: '"' :: q) : Quoted t i.value := by
  have h' := identParse_text.mp ⟨i, h, rfl⟩
  generalize hs : '"' :: (t ++ ['"']) = s at h' ht
  generalize i.value = v at h'
  cases h' with
  | bare hb =>
    subst hs
    exact absurd (hb.2.1 '"' List.mem_cons_self) (by decide)
  | quoted h =>
    have := List.append_cancel_right (List.cons.inj hs).2
    rw [this]; exact h
  | multi => exact absurd rfl (ht _)
  | raw => cases hs
  | rawMulti => cases hs

/-- Each kind of piece. -/
example : ReadsAs "\"a\\n\\\\\\u{1F600}\\  \n b\"".toList ("a\n\\".toList ++ [Char.ofNat 0x1F600] ++ "b".toList) := by
  refine C28_quoted (t := "a\\n\\\\\\u{1F600}\\  \n b".toList) ?_
  refine .plain (by decide) (by decide) (by decide) (by decide) ?_
  refine .escape (e := 'n') (by decide) ?_
  refine .escape (e := '\\') (by decide) ?_
  refine .unicode (hx := "1F600".toList) (by decide) (by decide)
    (fun x hx => isDigit_iff.2.1.mpr ((by decide : ∀ x ∈ "1F600".toList, isHexDigit x = true) x hx)) (by decide) ?_
  refine .space (w := "  \n ".toList) (by decide) (by decide) (by rintro _ _ ⟨⟩; decide) ?_
  exact .plain (by decide) (by decide) (by decide) (by decide) .nil

/-! ### C29 -/

/-- **C29**: a multi-line string has as value its lines, without the prefix and with
single line feeds between them, whatever newline sequences separate them. -/
theorem C29_quoted {nl pre t : Str} {ls : List Str} (h0 : NewlineSeq nl t) (hp : ∀ c ∈ pre, Space c)
    (h : Multi pre t ls) : ReadsAs ('"' :: '"' :: '"' :: (nl ++ (t ++ ['"', '"', '"']))) (joinLines ls) :=
  StrText.reads (.multi h0 hp h)

/-- **C29**, partial: the same for raw strings. Missing: a raw string whose value is
a single quote, which is rejected. -/
theorem C29_raw_partial {n : Nat} {nl pre t : Str} {ls : List Str} (h0 : NewlineSeq nl t) (hp : ∀ c ∈ pre, Space c)
    (h : RawMulti (n + 1) pre t ls) (h1 : joinLines ls ≠ ['"']) :
    ReadsAs (hashes (n + 1) ++ '"' :: '"' :: '"' :: (nl ++ (t ++ '"' :: '"' :: '"' :: hashes (n + 1)))) (joinLines ls) :=
  StrText.reads (.rawMulti h0 hp h h1)

/-- **C29**, raw strings, exactly: a raw string over several lines is accepted, with its lines as
value, if and only if the value is not a single quote. -/
theorem C29_raw_exact {n : Nat} {nl pre t : Str} {ls : List Str} (h0 : NewlineSeq nl t) (hp : ∀ c ∈ pre, Space c)
    (h : RawMulti (n + 1) pre t ls) {text : Str}
    (e : text = hashes (n + 1) ++ '"' :: '"' :: '"' :: (nl ++ (t ++ '"' :: '"' :: '"' :: hashes (n + 1)))) :
    ((∃ i, Ident.parse text = .ok i ∧ i.value = joinLines ls) ↔ joinLines ls ≠ ['"']) ∧
    (joinLines ls = ['"'] → Ident.parse text = .err) := by
  subst e
  have key : joinLines ls = ['"'] → ∀ i, Ident.parse
      (hashes (n + 1) ++ '"' :: '"' :: '"' :: (nl ++ (t ++ '"' :: '"' :: '"' :: hashes (n + 1)))) ≠ .ok i := by
    intro hj i hi
    have hs := identParse_iff.mp ⟨i, hi, rfl⟩
    have hm := rawString_multi (r := []) h0 hp h
    rw [if_pos hj] at hm
    have e : hashes (n + 1) ++ '"' :: '"' :: '"' :: (nl ++ (t ++ '"' :: '"' :: '"' :: hashes (n + 1))) =
        hashes (n + 1) ++ (tripleQuote ++ (nl ++ (t ++ (tripleQuote ++ (hashes (n + 1) ++ []))))) := by simp [tripleQuote]
    rw [e] at hs
    have hc : stringP (hashes (n + 1) ++ (tripleQuote ++ (nl ++ (t ++ (tripleQuote ++ (hashes (n + 1) ++ [])))))) = .cut := by
      unfold stringP
      refine (alt_right (bind_back ?_)).trans (alt_cut (bind_cut hm))
      exact identString_hash _
    rw [hc] at hs
    cases hs
  refine ⟨⟨?_, fun h1 => (C29_raw_partial h0 hp h h1).1⟩, fun hj => ?_⟩
  · rintro ⟨i, hi, _⟩ hj
    exact key hj i hi
  · rcases (C06_ok_or_err _).2.2.2 with ⟨i, hi⟩ | h
    · exact absurd hi (key hj i)
    · exact h

/-- Lines written one after the other, each with the prefix and followed by its
newline sequence. -/
def indentLines (pre : Str) : List (Str × Str) → Str
  | [] => pre
  | (l, nl) :: ls => pre ++ (l ++ (nl ++ indentLines pre ls))

/-- A character that stands for itself in a multi-line string. -/
def PlainChar (c : Char) : Prop := c ≠ '\\' ∧ c ≠ '"' ∧ ¬ Newline c ∧ ¬ Disallowed c

/-- The newline sequences, one of which may not be a lone carriage return before a
line feed. -/
def newlineSeqs : List Str :=
  [['\r', '\n'], ['\n'], [Char.ofNat 0x85], [Char.ofNat 0x0B], [Char.ofNat 0x0C], [Char.ofNat 0x2028],
    [Char.ofNat 0x2029]]

omit [FloatIO] in
theorem newlineSeqs_seq {nl : Str} (h : nl ∈ newlineSeqs) (t : Str) : NewlineSeq nl t := by
  simp only [newlineSeqs, List.mem_cons, List.not_mem_nil, or_false] at h
  rcases h with rfl | h
  · exact Or.inl rfl
  · right
    rcases h with rfl | rfl | rfl | rfl | rfl | rfl <;>
      exact ⟨_, rfl, by decide, fun e => absurd e (by decide)⟩

omit [FloatIO] in
theorem MLine.plainLine {l : Str} (h : ∀ c ∈ l, PlainChar c) : MLine l l := by
  induction l with
  | nil => exact .nil
  | cons c l ih =>
    obtain ⟨h1, h2, h3, h4⟩ := h c List.mem_cons_self
    exact .plain h1 h2 h3 h4 (ih fun c hc => h c (List.mem_cons_of_mem _ hc))

/-- **C29**: any prefix of white space, any lines of plain characters (none of which
is white space only), any newline sequences. -/
theorem C29_lines {nl pre : Str} {ls : List (Str × Str)} (h0 : nl ∈ newlineSeqs) (hp : ∀ c ∈ pre, Space c)
    (hl : ∀ l ∈ ls, (∀ c ∈ l.1, PlainChar c) ∧ (∃ a ∈ l.1, ¬ Space a) ∧ l.2 ∈ newlineSeqs) :
    ReadsAs ('"' :: '"' :: '"' :: (nl ++ (indentLines pre ls ++ ['"', '"', '"']))) (joinLines (ls.map (·.1))) := by
  refine C29_quoted (newlineSeqs_seq h0 _) hp ?_
  clear h0
  induction ls with
  | nil =>
    have := Multi.close (pre := pre) (w := []) .nil
    rw [List.append_nil] at this
    exact this
  | cons l ls ih =>
    obtain ⟨g1, g2, g3⟩ := hl l List.mem_cons_self
    exact .line (MLine.plainLine g1) g2 (newlineSeqs_seq g3 _) (ih fun l hm => hl l (List.mem_cons_of_mem _ hm))

/-- Two lines, with different newline sequences. -/
example : ReadsAs "\"\"\"\n  a b\r\n   c\n  \"\"\"".toList "a b\n c".toList :=
  C29_lines (nl := ['\n']) (pre := [' ', ' ']) (ls := [("a b".toList, ['\r', '\n']), (" c".toList, ['\n'])])
    (by decide) (by decide) (by
      intro l hl
      simp only [List.mem_cons, List.not_mem_nil, or_false] at hl
      rcases hl with rfl | rfl
      · exact ⟨by unfold PlainChar; decide, ⟨'a', by decide, by decide⟩, by decide⟩
      · exact ⟨by unfold PlainChar; decide, ⟨'c', by decide, by decide⟩, by decide⟩)

/-- A raw string meeting the hypotheses of `C29_raw_partial`. -/
example : ReadsAs "#\"\"\"\n a\\\n\n \"\"\"#".toList "a\\\n".toList :=
  C29_raw_partial (n := 0) (nl := ['\n']) (pre := [' ']) (t := " a\\\n\n ".toList) (ls := ["a\\".toList, []])
    (newlineSeqs_seq (by decide) _) (by decide)
    (.line (c := "a\\".toList) (nl := ['\n']) (t := "\n ".toList) (by decide)
      (by
        rintro ⟨x, y, e⟩
        have := congrArg List.length e
        simp [hashes] at this
        omega)
      ⟨'a', by decide, by decide⟩ (newlineSeqs_seq (by decide) _)
      (.empty (sp := []) (nl := ['\n']) (t := [' ']) (by decide) (newlineSeqs_seq (by decide) _) .close))
    (by decide)

omit [FloatIO] in
/-- C29 is violated: a multi-line raw string whose only line is a quote is
rejected. -/
theorem C29_violated : Ident.parse "#\"\"\"\n\"\n\"\"\"#".toList = .err := by krfl

/-! ### C30 -/

/-- **C30**: a raw string is read verbatim. -/
theorem C30_raw {n : Nat} {body : Str} (h1 : ∀ c ∈ body, ¬ Newline c) (h2 : ∀ c ∈ body, ¬ Disallowed c)
    (h3 : ¬ Contains body ('"' :: hashes (n + 1))) (h4 : body ≠ ['"']) :
    ReadsAs (hashes (n + 1) ++ '"' :: (body ++ '"' :: hashes (n + 1))) body :=
  StrText.reads (.raw ⟨fun c hc => ⟨h1 c hc, h2 c hc⟩, h3, h4⟩)

/-- A raw string with quotes, hashes and backslashes in it. -/
example : ReadsAs "##\"a\"#\\n\"##".toList "a\"#\\n".toList :=
  C30_raw (n := 1) (body := "a\"#\\n".toList) (by decide) (by decide)
    (by
      rintro ⟨x, y, e⟩
      have hl := congrArg List.length e
      have : x.length = 0 ∨ x.length = 1 ∨ x.length = 2 := by
        simp [hashes] at hl
        omega
      rcases x with _ | ⟨a, _ | ⟨b, _ | ⟨c, x⟩⟩⟩
      · exact absurd (List.cons.inj e).1 (by decide)
      · simp only [List.cons_append, List.nil_append, hashes, List.replicate] at e
        have := (List.cons.inj (List.cons.inj (List.cons.inj (List.cons.inj e).2).2).2).1
        exact absurd this (by decide)
      · have := (List.cons.inj (List.cons.inj (List.cons.inj e).2).2).1
        exact absurd this (by decide)
      · simp at this)
    (by decide)

/-! ### C33 -/

/-- Starts like neither a quoted nor a raw string. -/
def Unquoted (t : Str) : Prop := (∀ q, t ≠ '"' :: q) ∧ ∀ q, t ≠ '#' :: q

omit [FloatIO] in
theorem unquoted_text {t v : Str} (h : StrText t v) (hu : Unquoted t) : Bare t ∧ v = t := by
  cases h with
  | bare h => exact ⟨h, rfl⟩
  | quoted => exact absurd rfl (hu.1 _)
  | multi => exact absurd rfl (hu.1 _)
  | raw => exact absurd rfl (hu.2 _)
  | rawMulti => exact absurd rfl (hu.2 _)

/-- **C33**: an accepted unquoted identifier is not empty, contains no white space,
newline, disallowed code point or punctuation, does not start like a number, and its
value is its text. -/
theorem C33_accepted {t : Str} {i : Ident} (h : Ident.parse t = .ok i) (hu : Unquoted t) :
    i.value = t ∧ t ≠ [] ∧ ¬ NumberLike t ∧
      ∀ c ∈ t, ¬ Space c ∧ ¬ Newline c ∧ ¬ Disallowed c ∧ c ∉ punctuation := by
  obtain ⟨h1, h2⟩ := unquoted_text (identParse_text.mp ⟨i, h, rfl⟩) hu
  exact ⟨h2, h1.1, h1.2.2.1, h1.2.1⟩

theorem parse_err {t : Str} (h : ∀ i, Ident.parse t ≠ .ok i) : Ident.parse t = .err := by
  cases hp : Ident.parse t with
  | ok i => exact absurd hp (h i)
  | err => rfl
  | panic => exact absurd hp ((C06_parse_total t).2.2.2)

/-- **C33**: a text that starts like a number is rejected. -/
theorem C33_number {t : Str} (h : NumberLike t) : Ident.parse t = .err := by
  refine parse_err fun i hi => (C33_accepted hi ?_).2.2.1 h
  obtain ⟨sg, k, pt, d, q, hs, hp, hd, rfl⟩ := h
  have hd' : d ≠ '"' ∧ d ≠ '#' := by
    constructor <;> rintro rfl <;> exact absurd (isDigit_iff.1.mp hd) (by decide)
  constructor <;> intro x e <;> cases hs <;> rcases hp with rfl | rfl <;>
    simp only [List.nil_append, List.cons_append, List.cons.injEq] at e <;>
    first
    | exact hd'.1 e.1
    | exact hd'.2 e.1
    | exact absurd e.1 (by decide)

/-- **C33**, partial: the reserved words other than `-inf` are rejected. Missing:
`-inf`, which is accepted. -/
theorem C33_reserved_partial {t : Str} (h : t ∈ reserved) (h1 : t ≠ "-inf".toList) : Ident.parse t = .err := by
  refine parse_err fun i hi => ?_
  have hu : Unquoted t := by
    revert h
    have : ∀ t ∈ reserved, t.head? ≠ some '"' ∧ t.head? ≠ some '#' := by decide
    intro h
    constructor
    · rintro q rfl; exact (this _ h).1 rfl
    · rintro q rfl; exact (this _ h).2 rfl
  exact h1 ((unquoted_text (identParse_text.mp ⟨i, hi, rfl⟩) hu).1.2.2.2 h)

omit [FloatIO] in
/-- C33 is violated: `-inf` is accepted as an unquoted identifier. -/
theorem C33_violated : ∃ i, Ident.parse "-inf".toList = .ok i ∧ i.value = "-inf".toList :=
  ⟨⟨"-inf".toList, some "-inf".toList, ⟨0, 4⟩⟩, by krfl, rfl⟩

/-- **C33**: exactly the `Bare` texts are accepted among the unquoted ones. -/
theorem C33_exact {t : Str} (hu : Unquoted t) : (∃ i, Ident.parse t = .ok i) ↔ Bare t := by
  constructor
  · rintro ⟨i, h⟩
    exact (unquoted_text (identParse_text.mp ⟨i, h, rfl⟩) hu).1
  · intro h
    obtain ⟨i, h, _⟩ := identParse_text.mpr (.bare h)
    exact ⟨i, h⟩

/-- An accepted unquoted identifier, and a text that starts like a number. -/
example : (∃ i, Ident.parse "-a.b-0".toList = .ok i) ∧ NumberLike "+.5x".toList :=
  ⟨⟨⟨"-a.b-0".toList, some "-a.b-0".toList, ⟨0, 6⟩⟩, by krfl⟩, ['+'], 1, ['.'], '5', ['x'], .plus, Or.inr rfl, isDigit_iff.1.mpr (by decide), rfl⟩

/-! ### C42 -/

/-- The code points that KDL does not allow in a document. -/
def KdlDisallowed (c : Char) : Prop := Disallowed c ∨ c.toNat = 0x7F

/-- **C42**, partial: no accepted string of any form contains a disallowed code
point, and the value only contains those written as escapes between double quotes.
Missing: U+007F, which is accepted. -/
theorem C42_strings_partial {t : Str} {i : Ident} (h : Ident.parse t = .ok i) :
    (∀ c ∈ t, KdlDisallowed c → c.toNat = 0x7F) ∧
    ∀ c ∈ i.value, KdlDisallowed c → c.toNat = 0x7F ∨ ∃ p q, t = '"' :: q ∧ Contains t p ∧ EscapeFor c p := by
  have h' := identParse_text.mp ⟨i, h, rfl⟩
  refine ⟨fun c hc hd => ?_, fun c hc hd => ?_⟩
  · rcases hd with hd | hd
    · exact absurd hd (strText_allowed h' c hc)
    · exact hd
  · rcases hd with hd | hd
    · exact Or.inr (strText_value h' hc hd)
    · exact Or.inl hd

omit [FloatIO] in
/-- C42 is violated: U+007F is accepted in an identifier. -/
theorem C42_violated : ∃ i, Ident.parse ['a', Char.ofNat 0x7F] = .ok i ∧ i.value = ['a', Char.ofNat 0x7F] ∧
    KdlDisallowed (Char.ofNat 0x7F) :=
  ⟨⟨['a', Char.ofNat 0x7F], some ['a', Char.ofNat 0x7F], ⟨0, 2⟩⟩, by krfl, rfl, Or.inr rfl⟩

/-- **C42**, exactly: of the code points that KDL does not allow, U+007F is the only one that an
accepted string can contain. -/
theorem C42_exact {c : Char} (hc : KdlDisallowed c) : (∃ t i, Ident.parse t = .ok i ∧ c ∈ t) ↔ c.toNat = 0x7F := by
  constructor
  · rintro ⟨t, i, h, hm⟩
    exact (C42_strings_partial h).1 c hm hc
  · intro h
    obtain ⟨i, h1, _⟩ := C42_violated
    have : c = Char.ofNat 0x7F := by rw [← h, Char.ofNat_toNat]
    exact ⟨_, i, h1, by simp [this]⟩

omit [FloatIO] in
/-- A disallowed code point as an escape. -/
example : ∃ i, Ident.parse "\"\\u{200E}\"".toList = .ok i ∧ i.value = [Char.ofNat 0x200E] :=
  ⟨⟨[Char.ofNat 0x200E], some "\"\\u{200E}\"".toList, ⟨0, 10⟩⟩, by krfl, rfl⟩

end

end Kdl
