import Verif.Lemmas.DiagTold
import Verif.Lemmas.DiagMany
import Verif.Lemmas.KernelRfl
import Verif.Model.FloatText
import Verif.Props.Recover
import Verif.Props.Exact
import Verif.Lemmas.Parser.Doubled
/-
The diagnostics of a failed parse: C39 and C55 for the recovery that is implemented, and C76 to C79.
-/

namespace Kdl
open Spec

section
variable [FloatIO]

/-- With the implemented recovery, as with any (`parseR_all`). -/
theorem parseD_erased (s : Str) : ∃ o1 o2 o3 o4 : Recovery,
    (Document.parseD s).erase = Document.parseR o1 s ∧ (Node.parseD s).erase = Node.parseR o2 s ∧
    (Entry.parseD s).erase = Entry.parseR o3 s ∧ (Ident.parseD s).erase = Ident.parseR o4 s :=
  ⟨_, _, _, _, tryParseD_erase (p := documentD) (q := fun o => documentR o) (fun total whole => .documentD total whole) s,
    tryParseD_erase (p := paddedNodeD) (q := fun o => paddedNodeR o) (fun total whole => .paddedNodeD total whole) s,
    tryParseD_erase (p := paddedNodeEntryD) (q := fun o => paddedNodeEntryR o) (fun total whole => .paddedNodeEntryD total whole) s,
    tryParseD_erase (p := identifierD) (q := identifierR) (fun total whole => .identifierD total whole) s⟩

theorem erased_parse {α : Type} {x : DResult α} {y : RResult α} {z : ParseResult α} (h : x.erase = y)
    (h' : (∀ a, y = .ok a ↔ z = .ok a) ∧ (∀ ds, y = .err ds → ds ≠ []) ∧ y ≠ .panic) :
    (∀ a, x = .ok a ↔ z = .ok a) ∧ (∀ ds, x = .err ds → ds ≠ []) ∧ x ≠ .panic := by
  subst h
  refine ⟨fun a => ?_, ?_, ?_⟩
  · rw [← h'.1 a]
    cases x <;> simp [DResult.erase]
  · rintro ds rfl e
    exact h'.2.1 _ rfl (by rw [e]; rfl)
  · rintro rfl
    exact h'.2.2 rfl

/-- **C39** for the recovery that is implemented: each of the four functions returns `Ok` with what the parser
without recovery reads, or `Err` with at least one diagnostic. -/
theorem C39_diagnosed (s : Str) :
    ((∀ d, Document.parseD s = .ok d ↔ Document.parse s = .ok d) ∧
      (∀ ds, Document.parseD s = .err ds → ds ≠ []) ∧ Document.parseD s ≠ .panic) ∧
    ((∀ d, Node.parseD s = .ok d ↔ Node.parse s = .ok d) ∧
      (∀ ds, Node.parseD s = .err ds → ds ≠ []) ∧ Node.parseD s ≠ .panic) ∧
    ((∀ d, Entry.parseD s = .ok d ↔ Entry.parse s = .ok d) ∧
      (∀ ds, Entry.parseD s = .err ds → ds ≠ []) ∧ Entry.parseD s ≠ .panic) ∧
    ((∀ d, Ident.parseD s = .ok d ↔ Ident.parse s = .ok d) ∧
      (∀ ds, Ident.parseD s = .err ds → ds ≠ []) ∧ Ident.parseD s ≠ .panic) := by
  obtain ⟨o1, o2, o3, o4, h1, h2, h3, h4⟩ := parseD_erased s
  exact ⟨erased_parse h1 (parseR_all o1 s).1, erased_parse h2 (parseR_all o2 s).2.1,
    erased_parse h3 (parseR_all o3 s).2.2.1, erased_parse h4 (parseR_all o4 s).2.2.2⟩

theorem erased_spans {α : Type} {s : Str} {x : DResult α} {y : RResult α} (h : x.erase = y)
    (h' : ∀ ds, y = .err ds → ∀ d ∈ ds, ∃ t, Selects s d t) (ds : List Diagnostic) (hx : x = .err ds) :
    ∀ d ∈ ds, ∃ t, Selects s d.span t := by
  subst h hx
  intro d hd
  exact h' _ rfl _ (List.mem_map_of_mem hd)

/-- **C55** for the recovery that is implemented: every diagnostic points into the text. -/
theorem C55_diagnosed (s : Str) (ds : List Diagnostic) :
    (Document.parseD s = .err ds → ∀ d ∈ ds, ∃ t, Selects s d.span t) ∧
    (Node.parseD s = .err ds → ∀ d ∈ ds, ∃ t, Selects s d.span t) ∧
    (Entry.parseD s = .err ds → ∀ d ∈ ds, ∃ t, Selects s d.span t) ∧
    (Ident.parseD s = .err ds → ∀ d ∈ ds, ∃ t, Selects s d.span t) := by
  obtain ⟨o1, o2, o3, o4, h1, h2, h3, h4⟩ := parseD_erased s
  exact ⟨erased_spans h1 (fun ds => (C55_diagnostics_in_text o1 s ds).1) ds,
    erased_spans h2 (fun ds => (C55_diagnostics_in_text o2 s ds).2.1) ds,
    erased_spans h3 (fun ds => (C55_diagnostics_in_text o3 s ds).2.2.1) ds,
    erased_spans h4 (fun ds => (C55_diagnostics_in_text o4 s ds).2.2.2) ds⟩

/-! ### C76: diagnostics say something -/

/-- **C76**, partial: every diagnostic of a failed `KdlDocument::parse` has a message and a label. Missing: the
other parse functions, for which it fails (`C76_violated`). -/
theorem C76_document_partial (s : Str) (ds : List Diagnostic) (h : Document.parseD s = .err ds) :
    ∀ d ∈ ds, d.message.isSome = true ∧ d.label.isSome = true := by
  have told : ∀ x : Rec, x.1.Told → ∀ total, (Rec.diagnostic total x).message.isSome = true ∧
      (Rec.diagnostic total x).label.isSome = true := by
    rintro ⟨⟨m, _ | lb, hp⟩, g⟩ hx total
    · simp [PErr.Told] at hx
    · cases m <;> simp [Rec.diagnostic]
  have key := (documentD_told (utf8Len s) (s.length + 1)).1 s [] (by intro x hx; cases hx)
  have hback := (documentD_told (utf8Len s) (s.length + 1)).2 s []
  have hend := documentDN_end (utf8Len s) (s.length + 1) s []
  change tryParseD documentD s = _ at h
  unfold tryParseD recoverableParseD documentD at h
  have all : ∀ l : List Rec, ToldAll l → ∀ d ∈ l.map (Rec.diagnostic (utf8Len s)),
      d.message.isSome = true ∧ d.label.isSome = true := by
    intro l hl d hd
    obtain ⟨x, hx, rfl⟩ := List.mem_map.mp hd
    exact told x (hl x hx) _
  cases hp : documentDN (utf8Len s) (s.length + 1) s [] with
  | ok a r l =>
    rw [hp] at h key
    obtain rfl := hend a r l hp
    cases l with
    | nil => cases h
    | cons x l => cases h; exact all _ key
  | back e r l => exact absurd hp (hback e r l)
  | cut e g r l =>
    rw [hp] at h key
    simp only at h
    cases hl : l ++ [(e, located g s r)] with
    | nil => simp at hl
    | cons x l' =>
      rw [hl] at h
      cases h
      refine all (x :: l') ?_
      rw [← hl]
      intro y hy
      rcases List.mem_append.mp hy with hy | hy
      · exact key.2 y hy
      · obtain rfl := List.mem_singleton.mp hy
        exact key.1
  | crash => rw [hp] at h; cases h

/-! ### C77 and C78: braces -/

/-- What is reported about an opening brace after `before` that nothing closes, although `inside` follows it. -/
def Spec.unclosed (before inside : Str) : List Diagnostic :=
  ⟨⟨utf8Len before, 1⟩, some "No closing '}' for child block", some "not closed", none⟩ ::
    if inside = [] then []
    else [⟨⟨utf8Len before + 1, utf8Len inside⟩, some "Closing '}' was not found after nodes", some "not closed", none⟩]

theorem parseD_err {S : Str} {d : Document} {A : List Rec} (h : documentDN (utf8Len S) (S.length + 1) S [] = .ok d [] A)
    (hA : A ≠ []) : Document.parseD S = .err (A.map (Rec.diagnostic (utf8Len S))) := by
  change tryParseD documentD S = _
  unfold tryParseD recoverableParseD documentD
  rw [h]
  cases A with
  | nil => exact absurd rfl hA
  | cons x l => rfl

theorem unclosedRecs_diag {total : Nat} {before t : Str} {d : Document} {total' : Nat}
    (h : nodesF total' (baseNode total') t = .ok d []) (ht : total = utf8Len (before ++ '{' :: t)) :
    (unclosedRecs ('{' :: t) t [] d).map (Rec.diagnostic total) = unclosed before t := by
  subst ht
  unfold unclosedRecs unclosed
  rw [nodes_isEmpty total' h]
  have e1 : utf8Len (before ++ '{' :: t) - utf8Len ('{' :: t) = utf8Len before := by
    simp only [utf8Len, List.map_append, List.sum_append]; omega
  have e2 : utf8Len ('{' :: t) - utf8Len t = 1 := by
    simp only [utf8Len, List.map_cons, List.sum_cons]
    have : '{'.utf8Size = 1 := rfl
    omega
  by_cases ht : t = []
  · subst ht
    simp [Rec.diagnostic, spanOf, e1, e2]
  · have e3 : utf8Len (before ++ '{' :: t) - utf8Len t = utf8Len before + 1 := by
      simp only [utf8Len, List.map_append, List.map_cons, List.sum_append, List.sum_cons]
      have : '{'.utf8Size = 1 := rfl
      omega
    have e4 : utf8Len ([] : Str) = 0 := rfl
    simp [ht, Rec.diagnostic, spanOf, e1, e2, e3, e4]

/-- **C77**. A node whose children block is not closed: the diagnostics are those for the opening brace, and for
what follows it, and no others. -/
theorem C77_unclosed {ty : Option Str} {tt nm nt T w t : Str} {es : List (SEntry Value)} {ds : List (SNode Value)}
    (h1 : TyText nt ty tt) (h2 : StrText nt nm) (h3 : EntriesText es T) (h4 : ∀ x, Text (.mid false) ('{' :: x) w)
    (h5 : Gives t ds) (hm : ∀ q, t ≠ Char.ofNat 0xFEFF :: q) :
    Document.parseD (tt ++ (nt ++ (T ++ (w ++ '{' :: t)))) = .err (unclosed (tt ++ (nt ++ (T ++ w))) t) := by
  obtain ⟨u, e, h5⟩ := C50_document.mp h5
  obtain rfl : t = u := e.resolve_right (hm u)
  generalize hn : utf8Len (tt ++ (nt ++ (T ++ (w ++ '{' :: t)))) = total
  obtain ⟨d, hd, _⟩ := h5.reads (Or.inl rfl) total
  rw [List.append_nil] at hd
  obtain ⟨n, hb⟩ := unclosed_base total (TyTok.text h1 h2.ne) (StrTok.text h2) (EntsTok.text h3)
    ((h4 t).reads (Or.inl (Or.inr (Or.inl ⟨_, rfl⟩)))) hd []
  have hs := (TyTok.text h1 h2.ne).starts ((StrTok.text h2).starts.append (T ++ (w ++ '{' :: t)))
  obtain ⟨d', hd'⟩ := oneDoc_run total hs hb (tt ++ (nt ++ (T ++ (w ++ '{' :: t)))).length
  rw [List.nil_append] at hd'
  rw [← hn] at hd'
  rw [parseD_err hd' (by simp [unclosedRecs]), unclosedRecs_diag hd]
  simp

/-- **C78**. A closing brace without an opening one, after and before accepted texts: the only diagnostic is for
that brace. -/
theorem C78_stray {t u : Str} {ds ds' : List (SNode Value)} (h1 : Gives t ds) (h2 : Gives u ds') :
    Document.parseD (t ++ '\n' :: '}' :: u) =
      .err [⟨⟨utf8Len t + 1, 1⟩, some "Expected end of document", some "not EOF", none⟩] := by
  obtain ⟨t', e, h1⟩ := C50_document.mp h1
  obtain ⟨u', e', h2⟩ := C50_document.mp h2
  generalize hn : utf8Len (t ++ '\n' :: '}' :: u) = total
  obtain ⟨d, hd, _⟩ := (nodes_n h1 u).reads (Or.inr ⟨_, rfl⟩) total
  have hdu : ∃ du, documentP total u = .ok du [] := by
    obtain ⟨du, hu, _⟩ := h2.reads (Or.inl rfl) total
    rw [List.append_nil] at hu
    unfold documentP
    rcases e' with rfl | rfl
    · have h4 : opt (takeP bom) u = .ok none u := opt_none (takeP_back (lit_back.mpr fun q => by
        obtain ⟨_, h0, _⟩ := h2.reads (Or.inl rfl) 0
        rw [List.append_nil] at h0
        exact nodesF_not_bom h0 q))
      rw [bind_eq h4, bind_eq hu]
      exact ⟨_, rfl⟩
    · have h4 : opt (takeP bom) (Char.ofNat 0xFEFF :: u') = .ok (some [Char.ofNat 0xFEFF]) u' :=
        opt_some (takeP_eq (a := ()) (t := [Char.ofNat 0xFEFF]) (lit_ok.mpr rfl))
      rw [bind_eq h4, bind_eq hu]
      exact ⟨_, rfl⟩
  obtain ⟨du, hdu⟩ := hdu
  obtain ⟨d', hd'⟩ := stray_doc total (s := t ++ '\n' :: '}' :: u) (s' := t' ++ '\n' :: '}' :: u) (t ++ '\n' :: u).length
    (by
      rcases e with rfl | rfl
      · refine Or.inl ⟨rfl, fun q e => ?_⟩
        obtain ⟨_, h0, _⟩ := (nodes_n h1 u).reads (Or.inr ⟨_, rfl⟩) 0
        exact nodesF_not_bom h0 q (by simpa using e)
      · exact Or.inr rfl)
    (by simpa using hd) hdu []
  have hl : (t ++ '\n' :: u).length + 2 = (t ++ '\n' :: '}' :: u).length + 1 := by simp; omega
  rw [hl, List.nil_append, ← hn] at hd'
  rw [parseD_err hd' (by simp)]
  have e1 : utf8Len (t ++ '\n' :: '}' :: u) - utf8Len ('}' :: u) = utf8Len t + 1 := by
    simp only [utf8Len, List.map_append, List.map_cons, List.sum_append, List.sum_cons]
    have : '\n'.utf8Size = 1 := rfl
    omega
  have e2 : utf8Len ('}' :: u) - utf8Len u = 1 := by
    simp only [utf8Len, List.map_cons, List.sum_cons]
    have : '}'.utf8Size = 1 := rfl
    omega
  simp [Rec.diagnostic, spanOf, e1, e2]

/-! ### C79: a mistake is reported once -/

/-- **C79**, partial: one missing brace, or one brace too many, is reported without repetition. Missing: mistakes in
what a slashdash removes, for which it fails (`C79_violated`, `C79_violated_exponential`). -/
theorem C79_unclosed_partial {ty : Option Str} {tt nm nt T w t : Str} {es : List (SEntry Value)} {ds : List (SNode Value)}
    (h1 : TyText nt ty tt) (h2 : StrText nt nm) (h3 : EntriesText es T) (h4 : ∀ x, Text (.mid false) ('{' :: x) w)
    (h5 : Gives t ds) (hm : ∀ q, t ≠ Char.ofNat 0xFEFF :: q) :
    ∃ ms, Document.parseD (tt ++ (nt ++ (T ++ (w ++ '{' :: t)))) = .err ms ∧ ms.Nodup ∧ ms.length ≤ 2 := by
  refine ⟨_, C77_unclosed h1 h2 h3 h4 h5 hm, ?_, ?_⟩ <;> unfold unclosed <;> split <;> simp

/-- **C79** fails for every slashdashed children block that is not closed: whatever is reported about it is
reported twice. -/
theorem C79_violated {ty : Option Str} {tt nm nt T w b t : Str} {es : List (SEntry Value)} {ds : List (SNode Value)}
    (h1 : TyText nt ty tt) (h2 : StrText nt nm) (h3 : EntriesText es T) (hw : NSpace ['/', '-'] w) (hne : w ≠ [])
    (hb : LSpace ['{'] b) (h5 : Gives t ds) (hm : ∀ q, t ≠ Char.ofNat 0xFEFF :: q) :
    Document.parseD (tt ++ (nt ++ (T ++ (w ++ '/' :: '-' :: (b ++ '{' :: t))))) =
      .err (unclosed (tt ++ (nt ++ (T ++ (w ++ '/' :: '-' :: b)))) t ++
        unclosed (tt ++ (nt ++ (T ++ (w ++ '/' :: '-' :: b)))) t) := by
  obtain ⟨u, e, h5⟩ := C50_document.mp h5
  obtain rfl : t = u := e.resolve_right (hm u)
  have h2' := StrTok.text h2
  have hs := (TyTok.text h1 h2.ne).starts (h2'.starts.append (T ++ (w ++ '/' :: '-' :: (b ++ '{' :: t))))
  generalize hn : utf8Len (tt ++ (nt ++ (T ++ (w ++ '/' :: '-' :: (b ++ '{' :: t))))) = total
  obtain ⟨d, hd, _⟩ := h5.reads (Or.inl rfl) total
  rw [List.append_nil] at hd
  obtain ⟨n, hb'⟩ := slashNode_run total (base := baseNodeDN total (tt ++ (nt ++ (T ++ (w ++ '/' :: '-' :: (b ++ '{' :: t))))).length)
    (TyTok.text h1 h2.ne) h2' (EntsTok.text h3) hw hne hb (d := d) (A := [])
    (fun l => by
      rw [List.append_nil]
      exact nodesDN_run total (by simp only [List.length_append, List.length_cons]; omega) hd l) []
  obtain ⟨d', hd'⟩ := oneDoc_run total hs hb' (tt ++ (nt ++ (T ++ (w ++ '/' :: '-' :: (b ++ '{' :: t))))).length
  rw [List.nil_append, ← hn] at hd'
  rw [parseD_err hd' (by simp [unclosedRecs]), List.nil_append, List.map_append,
    unclosedRecs_diag (before := tt ++ (nt ++ (T ++ (w ++ '/' :: '-' :: b)))) hd (by simp)]

/-- `a` with a slashdashed children block that is not closed, in which is the next such node. -/
def Spec.slashes : Nat → Str
  | 0 => []
  | k + 1 => 'a' :: ' ' :: '/' :: '-' :: '{' :: slashes k

/-- **C79** fails badly: a text of `5 * k` characters has at least `2 ^ k - 1` diagnostics. -/
theorem C79_violated_exponential (k : Nat) : (slashes (k + 1)).length = 5 * (k + 1) ∧
    ∃ ds, Document.parseD (slashes (k + 1)) = .err ds ∧ 2 ^ (k + 1) ≤ ds.length + 1 := by
  have hlen : ∀ k, (slashes k).length = 5 * k := by
    intro k
    induction k with
    | zero => rfl
    | succ k ih => simp [slashes, ih]; omega
  refine ⟨hlen _, ?_⟩
  have h1 : TyTok none [] := .none
  have h2 : StrTok ['a'] ['a'] := StrTok.text (bare_letter (by decide) (by decide))
  have h3 : EntsTok (α := Value) id [] [] := .nil
  have hw : NSpace ['/', '-'] [' '] := .space (by decide) .nil
  generalize hn : utf8Len (slashes (k + 1)) = total
  obtain ⟨d, A, h4, h5⟩ := manyNodes_run total h1 h2 h3 hw (by simp) .nil (f := slashes) rfl (fun _ => rfl) k (slashes (k + 1)).length
    (by rw [hlen]; omega)
  obtain ⟨n, hb⟩ := slashNode_run total h1 h2 h3 hw (by simp) .nil h4 []
  have hs := h1.starts (h2.starts.append ([] ++ ([' '] ++ '/' :: '-' :: ([] ++ '{' :: slashes k))))
  obtain ⟨d', hd'⟩ := oneDoc_run total hs hb (slashes (k + 1)).length
  rw [List.nil_append, ← hn] at hd'
  refine ⟨_, parseD_err (S := slashes (k + 1)) hd' (by simp [unclosedRecs]), ?_⟩
  simp only [List.length_map, List.length_append, unclosedRecs, List.length_cons]
  rw [Nat.pow_succ]
  omega

/-- There is no constant by which the number of diagnostics is bounded in terms of the length of the text. -/
theorem C79_violated_bound (c : Nat) : ¬ ∀ s ds, Document.parseD s = .err ds → ds.length ≤ c * s.length := by
  intro h
  obtain ⟨h1, ds, h2, h3⟩ := C79_violated_exponential (c + 9)
  have h4 := h _ _ h2
  rw [h1] at h4
  have key : ∀ c : Nat, 10 * c + 55 < 2 ^ (c + 10) ∧ c * (5 * (c + 10)) + 1 < 2 ^ (c + 10) := by
    intro c
    induction c with
    | zero => decide
    | succ c ih =>
      have e : 2 ^ (c + 1 + 10) = 2 ^ (c + 10) + 2 ^ (c + 10) := by
        rw [Nat.add_right_comm, Nat.pow_succ]
        exact Nat.mul_two _
      have f : (c + 1) * (5 * (c + 1 + 10)) = c * (5 * (c + 10)) + (10 * c + 55) := by grind
      rw [e, f]
      generalize 2 ^ (c + 10) = x at *
      generalize c * (5 * (c + 10)) = y at *
      omega
  have := (key c).2
  have e : c + 9 + 1 = c + 10 := rfl
  rw [e] at h3 h4
  omega

omit [FloatIO] in
/-- What can be said about the diagnostics of a parser whose records have labels. -/
theorem tryParseD_told {α : Type} {p : Nat → D α} {s : Str} (hd : DTold (p (utf8Len s))) {ds : List Diagnostic}
    (h : tryParseD p s = .err ds) : ∃ init last, ds = init ++ [last] ∧
      (∀ d ∈ init, d.message.isSome = true ∧ d.label.isSome = true) ∧
      (last.message.isSome = true ∧ last.label.isSome = true ∨ last.span.offset = 0 ∨
        last.span.offset + last.span.len = utf8Len s) := by
  have told : ∀ x : Rec, x.1.Told → ∀ total, (Rec.diagnostic total x).message.isSome = true ∧
      (Rec.diagnostic total x).label.isSome = true := by
    rintro ⟨⟨m, _ | lb, hp⟩, g⟩ hx total
    · simp [PErr.Told] at hx
    · cases m <;> simp [Rec.diagnostic]
  have all : ∀ l : List Rec, ToldAll l → ∀ d ∈ l.map (Rec.diagnostic (utf8Len s)),
      d.message.isSome = true ∧ d.label.isSome = true := by
    intro l hl d hd
    obtain ⟨x, hx, rfl⟩ := List.mem_map.mp hd
    exact told x (hl x hx) _
  have key := hd s [] (by intro x hx; cases hx)
  unfold tryParseD recoverableParseD at h
  have fin : ∀ (o : Option α) (l : List Rec) (x : Rec), (match some (o, l ++ [x]) with
      | some (some a, []) => DResult.ok a
      | some (_, l) => .err (l.map (Rec.diagnostic (utf8Len s)))
      | none => .panic) = .err ds → ds = l.map (Rec.diagnostic (utf8Len s)) ++ [Rec.diagnostic (utf8Len s) x] := by
    intro o l x h
    cases l <;> cases o <;> cases h <;> simp
  cases hp : p (utf8Len s) s [] with
  | ok a r l =>
    rw [hp] at h key
    cases r with
    | nil =>
      rcases List.eq_nil_or_concat l with rfl | ⟨l', x, rfl⟩
      · cases h
      · simp only [List.concat_eq_append] at h key
        refine ⟨_, _, fin _ _ _ h, all _ fun y hy => key y (List.mem_append_left _ hy), Or.inl (told x (key x (by simp)) _)⟩
    | cons c r =>
      refine ⟨_, _, fin _ _ _ h, all _ key, ?_⟩
      have hn : utf8Len ([] : Str) = 0 := rfl
      by_cases hs : utf8Len (c :: r) ≤ utf8Len s
      · refine Or.inr (Or.inr ?_)
        simp only [Rec.diagnostic, spanOf, hn]
        omega
      · refine Or.inr (Or.inl ?_)
        simp only [Rec.diagnostic, spanOf]
        omega
  | back e r l =>
    rw [hp] at h key
    have h2 := fin none l (e, ⟨s, r⟩) (by rw [← h])
    refine ⟨_, _, h2, all _ key, Or.inr (Or.inl ?_)⟩
    simp [Rec.diagnostic, spanOf]
  | cut e g r l =>
    rw [hp] at h key
    have h2 := fin none l (e, located g s r) (by rw [← h])
    exact ⟨_, _, h2, all _ key.2, Or.inl (told (e, located g s r) key.1 _)⟩
  | crash => rw [hp] at h; cases h

/-- **C76** for the other parse functions, partial: every diagnostic but the last has a message and a label, and so
has the last one unless it begins at the beginning of the text or ends at its end. Missing: that one, which
may have neither (`C76_violated`). -/
theorem C76_others_partial (s : Str) (ds : List Diagnostic)
    (h : Node.parseD s = .err ds ∨ Entry.parseD s = .err ds ∨ Ident.parseD s = .err ds) :
    ∃ init last, ds = init ++ [last] ∧ (∀ d ∈ init, d.message.isSome = true ∧ d.label.isSome = true) ∧
      (last.message.isSome = true ∧ last.label.isSome = true ∨ last.span.offset = 0 ∨
        last.span.offset + last.span.len = utf8Len s) := by
  have hb := DTold.baseNode (utf8Len s)
  have hn := DTold.node hb
  have he := DTold.nodeEntry (utf8Len s)
  have l1 : LTold (L.takeP (.rep0 (lineSpaceL <|+> nodeSpaceL))) := .takeP (.rep0 (.alt .lineSpace .nodeSpace))
  rcases h with h | h | h
  · refine tryParseD_told (p := paddedNodeD) ?_ h
    unfold paddedNodeD
    exact .bind .here fun _ => .bind hn fun _ => .bind (.lift (.opt .nodeTerminator)) fun _ => .bind (.lift l1) fun _ =>
      .bind .here fun _ => .pure
  · refine tryParseD_told (p := paddedNodeEntryD) ?_ h
    unfold paddedNodeEntryD
    refine .bind .here fun _ => .bind (.lift (.takeP (.rep0 .lineSpace))) fun _ => .bind he fun e => .bind (.lift l1) fun _ =>
      .bind .here fun _ => ?_
    cases e
    · exact .failP
    · exact .pure
  · exact tryParseD_told (p := identifierD) (DTold.identifier _) h

/-- **C76** fails for the other parse functions: what is left over at the end, and an empty node, are reported
without message and label. -/
theorem C76_violated :
    Node.parseD [] = .err [⟨⟨0, 0⟩, none, none, none⟩] ∧
    Node.parseD "a\nb".toList = .err [⟨⟨2, 1⟩, none, none, none⟩] ∧
    Entry.parseD "a b".toList = .err [⟨⟨2, 1⟩, none, none, none⟩] ∧
    Ident.parseD "a b".toList = .err [⟨⟨1, 2⟩, none, none, none⟩] := by
  refine ⟨?_, ?_, ?_, ?_⟩ <;> krfl

/-- A failed `KdlNode::parse` with diagnostics of both kinds. -/
example : Node.parseD "a 1x\nb".toList = .err [⟨⟨2, 2⟩, some "Expected integer", some "not integer",
    some "A valid value was partially parsed, but was not followed by a value terminator. Did you want a space here?"⟩,
    ⟨⟨5, 1⟩, none, none, none⟩] := by krfl

/-! ### Concrete cases -/

private def terminatorHelp : Option String :=
  some "A valid value was partially parsed, but was not followed by a value terminator. Did you want a space here?"
private def nameHelp : Option String :=
  some "This can be any string type, including a quoted, raw, or multiline string, as well as a plain identifier string."
private def blockHelp : Option String :=
  some "Did you forget to add the node name itself? Or perhaps terminated the node before its child block?"

-- the failure tests of `src/v2_parser.rs:2101-2560`
example : Document.parseD "foo { bar; { baz; }; }".toList = .err
      [⟨⟨11, 1⟩, some "Found child block instead of node name", some "not node name", blockHelp⟩] := by krfl
example : Document.parseD "no/de 1 {\n    1 2 foo\n    bad#\n}".toList = .err
      [⟨⟨0, 5⟩, some "Expected identifier string", some "not identifier string", terminatorHelp⟩,
       ⟨⟨0, 5⟩, some "Found invalid node name", some "not node name", nameHelp⟩,
       ⟨⟨14, 1⟩, some "Found invalid node name", some "not node name", nameHelp⟩,
       ⟨⟨26, 4⟩, some "Expected identifier string", some "not identifier string", terminatorHelp⟩,
       ⟨⟨26, 4⟩, some "Found invalid node name", some "not node name", nameHelp⟩] := by krfl
example : Document.parseD "node 1asdf 2".toList = .err
      [⟨⟨5, 5⟩, some "Expected integer", some "not integer", terminatorHelp⟩] := by krfl
example : Document.parseD "node 0x1asdf 2".toList = .err
      [⟨⟨5, 7⟩, some "Expected hexadecimal number", some "not hexadecimal number", terminatorHelp⟩] := by krfl
example : Document.parseD "node 0o1asdf 2".toList = .err
      [⟨⟨5, 7⟩, some "Expected octal number", some "not octal number", terminatorHelp⟩] := by krfl
example : Document.parseD "node 0b1asdf 2".toList = .err
      [⟨⟨5, 7⟩, some "Expected binary number", some "not binary number", terminatorHelp⟩] := by krfl
example : Document.parseD "node 1.0asdf 2".toList = .err
      [⟨⟨5, 7⟩, some "Expected float", some "not float", terminatorHelp⟩] := by krfl
example : Document.parseD "node 1.asdf 2".toList = .err
      [⟨⟨5, 6⟩, some "Non-digit character found after the '.' of a float", some "not float", none⟩] := by krfl
example : Document.parseD "node 1.0easdf 2".toList = .err
      [⟨⟨5, 8⟩, some "Non-digit character found in the exponent part of a float", some "not float", some "Floats with exponent parts should look like '2.0e123', or '43.3E-4'."⟩] := by krfl
example : Document.parseD "node \" 1".toList = .err
      [⟨⟨5, 3⟩, some "Expected quoted string", some "not quoted string", none⟩] := by krfl
example : Document.parseD "node \"foo\"1".toList = .err
      [⟨⟨5, 6⟩, some "Expected quoted string", some "not quoted string", terminatorHelp⟩] := by krfl
example : Document.parseD "node \"\nlet's do multiline!\"".toList = .err
      [⟨⟨5, 1⟩, some "Unexpected newline in single-line quoted string", some "not quoted string", some "You can make a string multi-line by wrapping it in '\"\"\"', with a newline immediately after the opening quotes."⟩,
       ⟨⟨16, 11⟩, some "Expected identifier string", some "not identifier string", terminatorHelp⟩] := by krfl
example : Document.parseD "node {".toList = .err
      [⟨⟨5, 1⟩, some "No closing '}' for child block", some "not closed", none⟩] := by krfl
example : Document.parseD "node {}}".toList = .err
      [⟨⟨7, 1⟩, some "Expected end of document", some "not EOF", none⟩] := by krfl
example : Document.parseD "node }{".toList = .err
      [⟨⟨5, 1⟩, some "Expected end of document", some "not EOF", none⟩,
       ⟨⟨6, 1⟩, some "Found child block instead of node name", some "not node name", blockHelp⟩,
       ⟨⟨6, 1⟩, some "No closing '}' for child block", some "not closed", none⟩] := by krfl
example : Document.parseD "node {\n".toList = .err
      [⟨⟨5, 1⟩, some "No closing '}' for child block", some "not closed", none⟩,
       ⟨⟨6, 1⟩, some "Closing '}' was not found after nodes", some "not closed", none⟩] := by krfl
example : Document.parseD "node {\nnode2{{}}".toList = .err
      [⟨⟨13, 1⟩, some "Found child block instead of node name", some "not node name", blockHelp⟩,
       ⟨⟨5, 1⟩, some "No closing '}' for child block", some "not closed", none⟩,
       ⟨⟨6, 10⟩, some "Closing '}' was not found after nodes", some "not closed", none⟩] := by krfl

-- mistakes in what a slashdash removes are reported several times
example : Document.parseD "a /-1x".toList = .err
      [⟨⟨4, 2⟩, some "Expected integer", some "not integer", terminatorHelp⟩,
       ⟨⟨4, 2⟩, some "Expected integer", some "not integer", terminatorHelp⟩,
       ⟨⟨4, 2⟩, some "Expected integer", some "not integer", terminatorHelp⟩,
       ⟨⟨4, 2⟩, some "Expected integer", some "not integer", terminatorHelp⟩,
       ⟨⟨4, 2⟩, some "Expected integer", some "not integer", terminatorHelp⟩] := by krfl
example : Document.parseD "a\n/-b 1x".toList = .err
      [⟨⟨6, 2⟩, some "Expected integer", some "not integer", terminatorHelp⟩,
       ⟨⟨6, 2⟩, some "Expected integer", some "not integer", terminatorHelp⟩] := by krfl

-- the hypotheses of C77, C78 and C79
theorem C77_example : Document.parseD "a {b c\n/*é*/".toList =
    .err [⟨⟨2, 1⟩, some "No closing '}' for child block", some "not closed", none⟩,
          ⟨⟨3, 10⟩, some "Closing '}' was not found after nodes", some "not closed", none⟩] :=
  C77_unclosed (tt := []) (nt := ['a']) (T := []) (w := [' ']) (t := "b c\n/*é*/".toList)
    (ds := [.mk none ['b'] [⟨none, none, .string ['c']⟩] none]) .none
    (bare_letter (by decide) (by decide)) .nil (fun _ => .midSpace (.space (by decide) .nil)) (gives_iff.mpr (by krfl))
    (by intro q e; exact absurd (List.cons.inj e).1 (by decide))

theorem C78_example : Document.parseD "é c\n}b {}".toList =
    .err [⟨⟨5, 1⟩, some "Expected end of document", some "not EOF", none⟩] :=
  C78_stray (t := "é c".toList) (u := "b {}".toList) (ds := [.mk none ['é'] [⟨none, none, .string ['c']⟩] none])
    (ds' := [.mk none ['b'] [] (some [])]) (gives_iff.mpr (by krfl)) (gives_iff.mpr (by krfl))

theorem C79_example : Document.parseD "a /-{".toList =
    .err [⟨⟨4, 1⟩, some "No closing '}' for child block", some "not closed", none⟩,
          ⟨⟨4, 1⟩, some "No closing '}' for child block", some "not closed", none⟩] :=
  C79_violated (tt := []) (nt := ['a']) (T := []) (w := [' ']) (b := []) (t := []) (ds := []) .none
    (bare_letter (by decide) (by decide)) .nil (.space (by decide) .nil) (by simp) .nil (gives_iff.mpr (by krfl)) (by intro q e; cases e)

end

end Kdl
