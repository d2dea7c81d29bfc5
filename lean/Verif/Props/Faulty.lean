import Verif.Lemmas.DiagOpen
import Verif.Lemmas.KernelRfl
import Verif.Model.FloatText
import Verif.Props.Diag
/-
C81: every mistaken word is reported, wherever else there are mistakes.
-/

namespace Kdl
open Spec

section
variable [FloatIO]

/-- The diagnostic about a mistaken word with `k` bytes in front of the text. -/
def Spec.Fault.diagnostic (k : Nat) (f : Fault) : Diagnostic :=
  ⟨⟨k + utf8Len f.before, utf8Len f.word⟩, some (f.message.getD ("Expected " ++ f.what)), some ("not " ++ f.what), f.help⟩

/-- **C81**, partial: if a text is a document but for some names of nodes and types, keys and values, at any depth, that are words
but no strings or values (also numbers that lack digits), strings with a wrong escape, strings with text right behind them, strings that are not
closed, three quotation marks in one line, or raw strings with text right behind them and no mark with space behind it
next (the strings with text behind them may be over several lines), then the diagnostics are those about them, at their places, in the order of the text, and no others; a word with an annotation comes after the mistakes in the annotation.
Missing: other mistakes; a mistaken number or keyword as the value of a property is one that hides all that follows
(`C81_violated_property`), a number that lacks digits at the end of a word hides the next word (`C81_violated_exponent`, `C81_violated_lacking`), a keyword with text behind it ends the node
(`C81_violated_keyword`), a mistaken string with
a space in it or over several lines is reported twice (`C81_violated_string`, `C81_violated_lines`), raw strings with text behind them hide what is between them and
the next mark with space behind it (`C81_violated_raw`), and any mistaken one as the name of a node is reported twice
(`C81_violated_name`). -/
theorem C81_partial {t : Str} {fs : List Fault} (h : Faulty .nodes [] fs t) (hne : fs ≠ []) :
    Document.parseD t = .err (fs.map (Fault.diagnostic 0)) ∧
    Document.parseD (Char.ofNat 0xFEFF :: t) = .err (fs.map (Fault.diagnostic 3)) := by
  have key : ∀ p : Str, (p = [] ∨ p = [Char.ofNat 0xFEFF]) →
      Document.parseD (p ++ t) = .err (fs.map (Fault.diagnostic (utf8Len p))) := by
    intro p hp
    obtain ⟨d, hd⟩ := faulty_document h (s := p ++ t) (by rcases hp with rfl | rfl <;> simp) (utf8Len (p ++ t)) (p ++ t).length
    rw [parseD_err hd (by simpa using hne), List.map_map]
    refine congrArg _ (List.map_congr_left fun f hf => ?_)
    obtain ⟨q, hq⟩ := h.places f hf
    exact mark_diagnostic hq
  exact ⟨key [] (Or.inl rfl), key [Char.ofNat 0xFEFF] (Or.inr rfl)⟩

/-- A document without such words is accepted, so `C81_partial` is about mistakes only. -/
theorem C81_no_mistakes {t : Str} (h : Faulty .nodes [] [] t) : ∃ d, Document.parseD t = .ok d := by
  obtain ⟨d, hd⟩ := faulty_document h (Or.inl rfl) (utf8Len t) t.length
  refine ⟨d, ?_⟩
  change tryParseD documentD t = _
  unfold tryParseD recoverableParseD documentD
  rw [hd]
  rfl

/-- **C81** for one node with mistakes in front of any text `u`: these mistakes are reported and all that is
reported about `u` alone, and nothing else. -/
theorem C81_front {B m u : Str} {fs : List Fault} (hB : Faulty .node (m ++ u) fs B) (hm : TermText m u) (hne : fs ≠ [])
    (hu : ∀ q, u ≠ Char.ofNat 0xFEFF :: q) :
    ∃ es', Document.parseD (B ++ (m ++ u)) = .err es' ∧ (∀ f ∈ fs, f.diagnostic 0 ∈ es') ∧
      (∀ es, Document.parseD u = .err es → ∀ d ∈ es, ∃ d' ∈ es', Moved (utf8Len (B ++ m)) d d') ∧
      ∀ d' ∈ es', (∃ f ∈ fs, d' = f.diagnostic 0) ∨
        ∃ es, Document.parseD u = .err es ∧ ∃ d ∈ es, Moved (utf8Len (B ++ m)) d d' := by
  have hs : Starts B := hB.reads.1
  have e : (B ++ m) ++ u = B ++ (m ++ u) := List.append_assoc ..
  have al := document_alike_in (faulty_onward hB hm) (starts_not_bom (hs.append _)) hu
  rw [← e] at al
  obtain ⟨es', h1, h2, h3, h4⟩ := alike_moved_in (p := B ++ m) (u := u) (by simpa using hne)
    (C39_diagnosed _).1.2.2 (C39_diagnosed _).1.2.2 al
  rw [e] at h1 h2 h4
  have dg : ∀ f ∈ fs, Rec.diagnostic (utf8Len (B ++ (m ++ u))) (f.mark (B ++ (m ++ u))) = f.diagnostic 0 := by
    intro f hf
    obtain ⟨q, hq⟩ := hB.places f hf
    exact mark_diagnostic (p := []) (q := q ++ (m ++ u)) (by conv => lhs; rw [hq]
                                                             simp)
  refine ⟨es', h1, fun f hf => ?_, h3, fun d' hd => ?_⟩
  · rw [← dg f hf]
    exact h2 _ (List.mem_map_of_mem hf)
  · rcases h4 d' hd with ⟨y, hy, rfl⟩ | h
    · obtain ⟨f, hf, rfl⟩ := List.mem_map.mp hy
      exact Or.inl ⟨f, hf, dg f hf⟩
    · exact Or.inr h

/-- What is reported if an entry stops the parser. -/
theorem entry_cut {ty : Option Str} {tt nm nt T w Z r : Str} {fs : List Fault} {zs : List Rec} {e : PErr} {g : Region}
    (h1 : TyText nt ty tt) (h2 : StrText nt nm) (h3 : FaultyEntries (w ++ Z) fs T) (hw : EntryLead Z w) (hZ : Starts Z)
    (h : ∀ total l, entryBodyD total Z l = .cut e (some g) r (l ++ zs)) :
    Document.parseD (tt ++ (nt ++ (T ++ (w ++ Z)))) =
      .err ((fs.map (Fault.shift (tt ++ nt))).map (Fault.diagnostic 0) ++
        (zs ++ [(e, g)]).map (Rec.diagnostic (utf8Len (tt ++ (nt ++ (T ++ (w ++ Z))))))) := by
  have en := fun total => entries_cut total h3 (ELead.text hw hZ) hZ (h total)
  have hcut := fun total => document_cut total
    (TyTok.starts (.text h1 h2.ne) ((StrTok.text h2).starts.append _))
    (node_cut total (.text h1 h2.ne) (.text h2) (en total).1 ((en total).2 []))
  generalize hS : tt ++ (nt ++ (T ++ (w ++ Z))) = S at *
  have hp : Document.parseD S = .err ((fs.map (Fault.mark (T ++ (w ++ Z))) ++ zs ++ [(e, g)]).map (Rec.diagnostic (utf8Len S))) := by
    change tryParseD documentD S = _
    unfold tryParseD recoverableParseD documentD
    rw [hcut (utf8Len S) S.length]
    rfl
  rw [hp, List.append_assoc, List.map_append]
  congr 2
  have hS' : S = (tt ++ nt) ++ (T ++ (w ++ Z)) := by rw [← hS]; simp
  rw [hS', ← mark_shift (tt ++ nt), List.map_map, ← hS']
  refine List.map_congr_left fun f hf => ?_
  obtain ⟨g, hg, rfl⟩ := List.mem_map.mp hf
  obtain ⟨q, hq⟩ := h3.places g hg
  exact mark_diagnostic (p := []) (q := q ++ (w ++ Z)) (by rw [hS', hq]; simp [Fault.shift])

theorem marks_diagnostics {S p t : Str} {hs : List Fault} (e : S = p ++ t) (hp : Placed hs t) :
    (hs.map (Fault.mark t)).map (Rec.diagnostic (utf8Len S)) = (hs.map (Fault.shift p)).map (Fault.diagnostic 0) := by
  rw [List.map_map, List.map_map]
  refine List.map_congr_left fun f hf => ?_
  obtain ⟨q, hq⟩ := hp f hf
  have := mark_diagnostic (p := p) hq
  rw [← e] at this
  simp only [Function.comp_apply]
  rw [this]
  simp only [Fault.diagnostic, Fault.shift, utf8Len_append, Nat.zero_add]

/-- **C77** with any nodes in front of the one whose children block is not closed: the diagnostics are those about mistaken
words in these nodes (none, if there are none), the one for the opening brace, the one for what follows it, and no others. -/
theorem C77_nodes {L P : Str} {hs : List Fault} {ty : Option Str} {tt nm nt T w t : Str} {es : List (SEntry Value)} {ds : List (SNode Value)}
    (hL : Text .lead (P ++ (tt ++ (nt ++ (T ++ (w ++ '{' :: t))))) L) (hP : FrontNodes (tt ++ (nt ++ (T ++ (w ++ '{' :: t)))) hs P)
    (h1 : TyText nt ty tt) (h2 : StrText nt nm) (h3 : EntriesText es T) (h4 : ∀ x, Text (.mid false) ('{' :: x) w)
    (h5 : Gives t ds) (hm : ∀ q, t ≠ Char.ofNat 0xFEFF :: q) :
    Document.parseD (L ++ (P ++ (tt ++ (nt ++ (T ++ (w ++ '{' :: t)))))) =
      .err ((hs.map (Fault.shift L)).map (Fault.diagnostic 0) ++ unclosed (L ++ (P ++ (tt ++ (nt ++ (T ++ w))))) t) := by
  obtain ⟨u, e, h5⟩ := C50_document.mp h5
  obtain rfl : t = u := e.resolve_right (hm u)
  generalize hS : L ++ (P ++ (tt ++ (nt ++ (T ++ (w ++ '{' :: t))))) = S
  obtain ⟨d, hd, _⟩ := h5.reads (Or.inl rfl) (utf8Len S)
  rw [List.append_nil] at hd
  have hst := (TyTok.text h1 h2.ne).starts ((StrTok.text h2).starts.append (T ++ (w ++ '{' :: t)))
  obtain ⟨d', A, rfl, hA⟩ := front_document (utf8Len S) hL hP hst (Q := fun A => A = unclosedRecs ('{' :: t) t [] d) (fun l => by
    obtain ⟨n, hb⟩ := unclosed_base (utf8Len S) (TyTok.text h1 h2.ne) (StrTok.text h2) (EntsTok.text h3)
      ((h4 t).reads (Or.inl (Or.inr (Or.inl ⟨_, rfl⟩)))) hd l
    exact ⟨n, _, rfl, hb⟩) S.length
  rw [hS] at hA
  rw [parseD_err hA (by simp [unclosedRecs]), List.map_append, marks_diagnostics hS.symm (hP.places.more _),
    unclosedRecs_diag (before := L ++ (P ++ (tt ++ (nt ++ (T ++ w))))) hd (by rw [← hS]; simp)]

/-- **C77** with mistakes: if the children block of a node is not closed, and there are mistaken words in the block or in
front of it, all of them are reported, and the opening brace, and maybe all that follows it, and nothing else. -/
theorem C77_mistakes {L P tt nt T w Z : Str} {hs ts ns fs gs : List Fault}
    (hL : Text .lead (P ++ (tt ++ (nt ++ (T ++ (w ++ '{' :: Z))))) L) (hP : FrontNodes (tt ++ (nt ++ (T ++ (w ++ '{' :: Z)))) hs P)
    (h1 : FaultyTy (nt ++ (T ++ (w ++ '{' :: Z))) ts tt)
    (h2 : FaultyName (T ++ (w ++ '{' :: Z)) ns nt) (h3 : FaultyEntries (w ++ '{' :: Z) fs T) (h4 : ∀ x, Text (.mid false) ('{' :: x) w)
    (h5 : Faulty .nodes [] gs Z) :
    ∃ more, (more = [] ∨ more = [⟨⟨utf8Len (L ++ (P ++ (tt ++ (nt ++ (T ++ w))))) + 1, utf8Len Z⟩, some "Closing '}' was not found after nodes",
        some "not closed", none⟩]) ∧
      Document.parseD (L ++ (P ++ (tt ++ (nt ++ (T ++ (w ++ '{' :: Z)))))) =
        .err ((hs.map (Fault.shift L) ++ (ts.map (Fault.shift (L ++ P)) ++ (ns.map (Fault.shift (L ++ (P ++ tt))) ++
            (fs.map (Fault.shift (L ++ (P ++ (tt ++ nt)))) ++
            gs.map (Fault.shift (L ++ (P ++ (tt ++ (nt ++ (T ++ (w ++ ['{']))))))))))).map (Fault.diagnostic 0) ++
          ⟨⟨utf8Len (L ++ (P ++ (tt ++ (nt ++ (T ++ w))))), 1⟩, some "No closing '}' for child block", some "not closed", none⟩ :: more) := by
  generalize hS : L ++ (P ++ (tt ++ (nt ++ (T ++ (w ++ '{' :: Z))))) = S
  obtain ⟨d, hd⟩ := h5.reads (Or.inl rfl) (utf8Len S) []
  rw [List.append_nil, List.nil_append] at hd
  have hst := h1.starts (h2.starts.append (T ++ (w ++ '{' :: Z)))
  obtain ⟨d2, A, ⟨d', rfl⟩, hA⟩ := front_document (utf8Len S) hL hP hst (Q := fun A => ∃ d', A =
      ts.map (Fault.mark (tt ++ (nt ++ (T ++ (w ++ '{' :: Z))))) ++ (ns.map (Fault.mark (nt ++ (T ++ (w ++ '{' :: Z)))) ++
        (fs.map (Fault.mark (T ++ (w ++ '{' :: Z))) ++ (gs.map (Fault.mark Z) ++ unclosedRecs ('{' :: Z) Z [] d')))) (fun l => by
    obtain ⟨n, d', hn⟩ := open_run (utf8Len S) h1 h2 h3 ((h4 Z).reads (Or.inl (Or.inr (Or.inl ⟨_, rfl⟩)))) hd l
    exact ⟨n, _, ⟨d', rfl⟩, hn⟩) S.length
  rw [hS] at hA
  rw [parseD_err hA (by simp [unclosedRecs])]
  have e1 : utf8Len S = utf8Len (L ++ (P ++ (tt ++ (nt ++ (T ++ w))))) + utf8Len ('{' :: Z) := by
    rw [← hS, ← utf8Len_append]; simp
  have e2 : utf8Len ('{' :: Z) = 1 + utf8Len Z := by
    simp only [utf8Len, List.map_cons, List.sum_cons]
    rfl
  have e0 : utf8Len ([] : Str) = 0 := rfl
  refine ⟨if d'.isEmpty then [] else [⟨⟨utf8Len (L ++ (P ++ (tt ++ (nt ++ (T ++ w))))) + 1, utf8Len Z⟩, some "Closing '}' was not found after nodes",
    some "not closed", none⟩], by split <;> simp, ?_⟩
  have hu : (unclosedRecs ('{' :: Z) Z [] d').map (Rec.diagnostic (utf8Len S)) =
      ⟨⟨utf8Len (L ++ (P ++ (tt ++ (nt ++ (T ++ w))))), 1⟩, some "No closing '}' for child block", some "not closed", none⟩ ::
        if d'.isEmpty then [] else [⟨⟨utf8Len (L ++ (P ++ (tt ++ (nt ++ (T ++ w))))) + 1, utf8Len Z⟩, some "Closing '}' was not found after nodes",
          some "not closed", none⟩] := by
    have s1 : utf8Len S - utf8Len ('{' :: Z) = utf8Len (L ++ (P ++ (tt ++ (nt ++ (T ++ w))))) := by omega
    have s2 : utf8Len ('{' :: Z) - utf8Len Z = 1 := by omega
    have s3 : utf8Len S - utf8Len Z = utf8Len (L ++ (P ++ (tt ++ (nt ++ (T ++ w))))) + 1 := by omega
    unfold unclosedRecs
    split <;> simp [Rec.diagnostic, spanOf, s1, s2, s3, e0]
  rw [List.map_append, List.map_append, List.map_append, List.map_append, List.map_append, hu]
  have d0 := marks_diagnostics (p := L) (t := P ++ (tt ++ (nt ++ (T ++ (w ++ '{' :: Z))))) (hs := hs) hS.symm (hP.places.more _)
  have d1 := marks_diagnostics (S := S) (p := L ++ P) (t := tt ++ (nt ++ (T ++ (w ++ '{' :: Z)))) (hs := ts) (by rw [← hS]; simp) (h1.places.more _)
  have d2 := marks_diagnostics (S := S) (p := L ++ (P ++ tt)) (t := nt ++ (T ++ (w ++ '{' :: Z))) (hs := ns) (by rw [← hS]; simp) (h2.places.more _)
  have d3 := marks_diagnostics (S := S) (p := L ++ (P ++ (tt ++ nt))) (t := T ++ (w ++ '{' :: Z)) (hs := fs) (by rw [← hS]; simp) (h3.places.more _)
  have d4 := marks_diagnostics (S := S) (p := L ++ (P ++ (tt ++ (nt ++ (T ++ (w ++ ['{'])))))) (t := Z) (hs := gs) (by rw [← hS]; simp) h5.places
  rw [d0, d1, d2, d3, d4]
  simp only [List.map_append, List.append_assoc]

/-- **C78** with mistakes: if there are mistaken words in front of a closing brace without an opening one, or behind it, all of
them are reported, and the brace, in the order of the text, and nothing else. -/
theorem C78_mistakes {t u : Str} {fs gs : List Fault} (h1 : Faulty .nodes ('}' :: u) fs t) (h2 : Faulty .nodes [] gs u) :
    Document.parseD (t ++ '}' :: u) = .err (fs.map (Fault.diagnostic 0) ++
      ⟨⟨utf8Len t, 1⟩, some "Expected end of document", some "not EOF", none⟩ ::
        (gs.map (Fault.shift (t ++ ['}']))).map (Fault.diagnostic 0)) := by
  have hn : (t ++ '}' :: u).length + 1 = (t ++ u).length + 2 := by
    simp only [List.length_append, List.length_cons]
    omega
  obtain ⟨d, hd⟩ := stray_faulty (utf8Len (t ++ '}' :: u)) h1 h2 (t ++ u).length
  rw [← hn] at hd
  rw [parseD_err hd (by simp)]
  have e2 : utf8Len ('}' :: u) = 1 + utf8Len u := by
    simp only [utf8Len, List.map_cons, List.sum_cons]
    rfl
  have e1 := utf8Len_append t ('}' :: u)
  have s1 : utf8Len (t ++ '}' :: u) - utf8Len ('}' :: u) = utf8Len t := by omega
  have s2 : utf8Len ('}' :: u) - utf8Len u = 1 := by omega
  have d1 : (fs.map (Fault.mark (t ++ '}' :: u))).map (Rec.diagnostic (utf8Len (t ++ '}' :: u))) = fs.map (Fault.diagnostic 0) := by
    rw [List.map_map]
    refine List.map_congr_left fun f hf => ?_
    obtain ⟨q, hq⟩ := h1.places.more ('}' :: u) f hf
    exact mark_diagnostic (p := []) hq
  have d2 : (gs.map (Fault.mark u)).map (Rec.diagnostic (utf8Len (t ++ '}' :: u))) = (gs.map (Fault.shift (t ++ ['}']))).map (Fault.diagnostic 0) := by
    rw [List.map_map, List.map_map]
    refine List.map_congr_left fun f hf => ?_
    obtain ⟨q, hq⟩ := h2.places f hf
    have := mark_diagnostic (p := t ++ ['}']) hq
    rw [show t ++ ['}'] ++ u = t ++ '}' :: u by simp] at this
    simp only [Function.comp_apply]
    rw [this]
    simp only [Fault.diagnostic, Fault.shift, utf8Len_append, Nat.zero_add]
  rw [List.map_append, List.map_cons, d1, d2]
  simp [Rec.diagnostic, spanOf, s1, s2]

/-- C81 is violated by a number that lacks its digits at the end of a word: the next character, whatever it is, and the
letters behind it are counted to the number, so that nothing is reported about them. So a line break and the name in the
next line are left out, or a closing brace. The same holds for all of `BadWord` that lack something (`0x`, `1e`, `#`). -/
theorem C81_violated_lacking {nt nm T y : Str} {l : Char} {fs : List Fault} (hn : StrText nt nm) (hl : ¬ IsDigit 10 l)
    (hy : ∀ x ∈ y, IdentChar x) (hT : FaultyEntries [] fs T) :
    Document.parseD (nt ++ ' ' :: '1' :: '.' :: l :: (y ++ T)) =
      .err (⟨⟨utf8Len nt + 1, utf8Len ('1' :: '.' :: l :: y)⟩, some fractionMessage, some "not float", none⟩ ::
        (fs.map (Fault.shift (nt ++ ' ' :: '1' :: '.' :: l :: y))).map (Fault.diagnostic 0)) := by
  have g : Group ['1'] := ⟨_, [], rfl, isDigit_iff.1.mpr (by decide), by simp, by decide⟩
  have hx : BadWord ('1' :: '.' :: l :: y) "float" none (some fractionMessage) := .fraction (sg := []) (ip := ['1']) .none g hl hy
  have ld (r : Str) : EntryLead r [' '] := .space (.space (c := ' ') (by decide) .nil) (by simp)
  have h := Faulty.items (r := []) .leadNil (.last (.leaf (r := []) (w := []) (tt := []) .none (.ok hn)
    (.cons (ld _) (.word (tt := []) .none hx) (T := T) (by simpa using hT)) (.midSpace .nil)))
  have h := (C81_partial h (by simp)).1
  simpa [Fault.diagnostic, Fault.shift, utf8Len_append, Function.comp_def, show utf8Len [' '] = 1 from rfl] using h

/-- C81 is violated by a mistaken word as the value of a property: nothing is reported about what follows, whatever it
is. The mistakes in front of it are reported, also those in its annotation. -/
theorem C81_violated_property {ty : Option Str} {tt nm nt T w kt key wb wa vt x r : Str} {fs ts : List Fault} {help : String}
    (h1 : TyText nt ty tt) (h2 : StrText nt nm) (h3 : FaultyEntries (w ++ (kt ++ (wb ++ '=' :: (wa ++ (vt ++ (x ++ r)))))) fs T)
    (hw : EntryLead (kt ++ (wb ++ '=' :: (wa ++ (vt ++ (x ++ r))))) w) (hk : StrText kt key) (hb : NSpace ['='] wb)
    (ha : NSpace (vt ++ (x ++ r)) wa) (hv : FaultyTy (x ++ r) ts vt) (hx : Halts x r help) :
    Document.parseD (tt ++ (nt ++ (T ++ (w ++ (kt ++ (wb ++ '=' :: (wa ++ (vt ++ (x ++ r))))))))) =
      .err ((fs.map (Fault.shift (tt ++ nt))).map (Fault.diagnostic 0) ++
        ((ts.map (Fault.shift (tt ++ (nt ++ (T ++ (w ++ (kt ++ (wb ++ '=' :: wa)))))))).map (Fault.diagnostic 0) ++
        [⟨⟨utf8Len (tt ++ (nt ++ (T ++ (w ++ (kt ++ (wb ++ '=' :: wa)))))), utf8Len (vt ++ x)⟩,
          some "Expected property value", some "not property value", some help⟩])) := by
  have hk' := StrTok.text hk
  rw [entry_cut h1 h2 h3 hw (hk'.starts.append _) fun total => propHalts_run total hk' (hb.sp (by simp)) (ha.sp (by
    obtain ⟨_, _, e, _⟩ := hv.starts (halts_value hx).1
    simp [e])) hv hx]
  have hz : tt ++ (nt ++ (T ++ (w ++ (kt ++ (wb ++ '=' :: (wa ++ (vt ++ (x ++ r)))))))) =
      (tt ++ (nt ++ (T ++ (w ++ (kt ++ (wb ++ '=' :: wa)))))) ++ (vt ++ (x ++ r)) := by simp
  rw [hz, List.map_append]
  generalize tt ++ (nt ++ (T ++ (w ++ (kt ++ (wb ++ '=' :: wa))))) = B
  congr 3
  · rw [← mark_shift B, List.map_map]
    refine List.map_congr_left fun f hf => ?_
    obtain ⟨g, hg, rfl⟩ := List.mem_map.mp hf
    obtain ⟨q, hq⟩ := hv.places g hg
    exact mark_diagnostic (p := []) (q := q ++ (x ++ r)) (by conv => lhs; rw [hq]
                                                             simp [Fault.shift])
  · have h4 := utf8Len_append B (vt ++ (x ++ r))
    have h5 := utf8Len_append (vt ++ x) r
    have h6 : vt ++ (x ++ r) = (vt ++ x) ++ r := by simp
    refine congrArg (fun d => [d]) ?_
    simp only [Rec.diagnostic, spanOf, wordErr, h6, Diagnostic.mk.injEq, Span.mk.injEq] at h4 ⊢
    exact ⟨⟨by omega, by omega⟩, rfl, rfl, trivial⟩

/-- C81 is violated by a property without value at the end of a line or node, or in front of a block of children: nothing
is reported about what follows, whatever it is. -/
theorem C81_violated_missing {ty : Option Str} {tt nm nt T w kt key wb wa r : Str} {fs : List Fault}
    (h1 : TyText nt ty tt) (h2 : StrText nt nm) (h3 : FaultyEntries (w ++ (kt ++ (wb ++ '=' :: (wa ++ r)))) fs T)
    (hw : EntryLead (kt ++ (wb ++ '=' :: (wa ++ r))) w) (hk : StrText kt key) (hb : NSpace ['='] wb)
    (ha : NSpace r wa) (hr : NoMore r) :
    Document.parseD (tt ++ (nt ++ (T ++ (w ++ (kt ++ (wb ++ '=' :: (wa ++ r))))))) =
      .err ((fs.map (Fault.shift (tt ++ nt))).map (Fault.diagnostic 0) ++
        [⟨⟨utf8Len (tt ++ (nt ++ (T ++ (w ++ (kt ++ (wb ++ '=' :: wa)))))), 0⟩,
          some "Expected property value", some "not property value", none⟩]) := by
  have hk' := StrTok.text hk
  rw [entry_cut h1 h2 h3 hw (hk'.starts.append _) (zs := []) fun total l => by
    rw [List.append_nil]
    exact propMissing_run total hk' (hb.sp (by simp)) ha hr l]
  have hz : tt ++ (nt ++ (T ++ (w ++ (kt ++ (wb ++ '=' :: (wa ++ r)))))) =
      (tt ++ (nt ++ (T ++ (w ++ (kt ++ (wb ++ '=' :: wa)))))) ++ r := by simp
  rw [hz]
  generalize tt ++ (nt ++ (T ++ (w ++ (kt ++ (wb ++ '=' :: wa))))) = B
  have h4 := utf8Len_append B r
  congr 2
  refine congrArg (fun d => [d]) ?_
  simp only [Rec.diagnostic, spanOf, wordErr, Diagnostic.mk.injEq, Span.mk.injEq]
  exact ⟨⟨by omega, by omega⟩, rfl, rfl, trivial⟩

/-- C81 is violated by a reserved word as the name of a node: it is reported twice. -/
theorem C81_violated_name {x : Str} (h : Refused x) :
    ∃ d d', Document.parseD x = .err [d, d'] ∧ d.span = ⟨0, utf8Len x⟩ ∧ d'.span = ⟨0, utf8Len x⟩ := by
  have hf : Faulty .nodes [] [reservedFault x, nameFault x] x := by
    have := Faulty.items (r := []) .leadNil (.last (.leaf (r := []) (tt := []) .none (.string (.reserved h)) .nil (.midSpace .nil)))
    simpa [Fault.shift] using this
  exact ⟨_, _, (C81_partial hf (by simp)).1, by simp [Fault.diagnostic, reservedFault, utf8Len], by simp [Fault.diagnostic, nameFault, utf8Len]⟩

end

section
attribute [local instance] rustFloatIO

theorem C81_example_twice : Refused "true".toList ∧ Document.parseD "true".toList = .err
    [⟨⟨0, 4⟩, some "Expected identifier string", some "not identifier string", none⟩,
     ⟨⟨0, 4⟩, some "Found invalid node name", some "not node name", some nameHelp⟩] :=
  ⟨⟨by decide, by decide⟩, by krfl⟩

/-- A mistaken word. -/
theorem C81_example_word : BadWord "1x".toList "integer" (some longHelp) none :=
  .number (sg := []) (ds := []) (y := []) (c := '1') (l := 'x') .none (isDigit_iff.1.mpr (by decide)) (by simp) (by decide) (by decide)
      (mt isDigit_iff.1.mp (by decide)) (by decide) (by decide) (by simp)

/-- A text that meets the hypotheses of `C81_partial`: there are mistakes in an argument, in the name, the key and the
value of a node in a block, and in a node behind it. -/
theorem C81_example_faulty : Faulty .nodes [] [⟨"é ".toList, "1x".toList, "integer", some longHelp, none⟩,
    ⟨"é 1x {".toList, "3".toList, "node name", some nameHelp, some "Found invalid node name"⟩,
    ⟨"é 1x {3 ".toList, "nan".toList, "identifier string", none, none⟩,
    ⟨"é 1x {3 nan=".toList, "null".toList, "identifier string", none, none⟩,
    ⟨"é 1x {3 nan=null;}\nc ".toList, "#foo".toList, "keyword", some keywordHelp, none⟩]
    "é 1x {3 nan=null;}\nc #foo w".toList := by
  have sp (r : Str) : NSpace r [' '] := .space (c := ' ') (by decide) .nil
  have ld (r : Str) : EntryLead r [' '] := .space (sp r) (by simp)
  have bare : ∀ c : Char, IdentChar c → ¬ IsDigit 10 c → c ∉ ['+', '-', '.'] → StrText [c] [c] := fun c h1 h2 h3 =>
    .bare ⟨by simp, by simpa using h1, by
      rintro ⟨sg, k, pt, d, t, hs, hp, hd, e⟩
      rcases hs with _ | _ | _ <;> rcases hp with rfl | rfl <;> simp_all, by
      intro hm
      simp [reserved] at hm⟩
  have b2 : BadWord "#foo".toList "keyword" (some keywordHelp) none :=
    .keyword (y := "foo".toList) (by decide) (by decide) (by decide)
  have kv (r : Str) : FaultyEntry r [⟨[], "nan".toList, "identifier string", none, none⟩, ⟨"nan=".toList, "null".toList, "identifier string", none, none⟩]
      "nan=null".toList :=
    .prop (kt := "nan".toList) (ak := []) (ae := []) (tt := []) (vt := "null".toList)
      (.string (.reserved ⟨by decide, by decide⟩)) .nil .nil .none (.string (.reserved ⟨by decide, by decide⟩))
  have wd (r : Str) : FaultyEntry r [] "w".toList :=
    .arg (tt := []) (vt := ['w']) (fs := []) .none
      (.ok (.str (bare 'w' (by decide) (mt isDigit_iff.1.mp (by decide)) (by decide))))
  have three (r : Str) : FaultyName r [nameFault "3".toList] "3".toList :=
    .number (by decide) ⟨[], 1, [], '3', [], .none, Or.inl rfl, isDigit_iff.1.mpr (by decide), rfl⟩
  have eb (r : Str) := FaultyEntries.cons (r := r) (ld _) (kv _) .nil
  have ec := FaultyEntries.cons (r := []) (ld _) (.word .none b2) (.cons (ld _) (wd _) .nil)
  have inner (x : Str) := Faulty.items (r := '}' :: x) .leadNil (.lastTerm (m := [';']) (.leaf .none (three _) (eb _) (.midSpace .nil))
    (Or.inl rfl) .leadNil)
  have c := Faulty.leaf (r := []) .none (.ok (bare 'c' (by decide) (mt isDigit_iff.1.mp (by decide)) (by decide))) ec (.midSpace .nil)
  have a (r : Str) := Faulty.block (r := r) .none (.ok (bare 'é' (by decide) (mt isDigit_iff.1.mp (by decide)) (by decide)))
    (.cons (ld _) (.word .none C81_example_word) .nil) (fun x => .midSpace (sp _)) inner (.tailSpace .nil)
  exact Faulty.items (r := []) .leadNil (.cons (a _) (m := ['\n']) (Or.inr (Or.inl (Or.inr ⟨'\n', rfl, by decide, by simp⟩))) .leadNil (.last c))

theorem C81_example : Document.parseD "é 1x {3 nan=null;}\nc #foo w".toList = .err
    [⟨⟨3, 2⟩, some "Expected integer", some "not integer", some longHelp⟩,
     ⟨⟨7, 1⟩, some "Found invalid node name", some "not node name", some nameHelp⟩,
     ⟨⟨9, 3⟩, some "Expected identifier string", some "not identifier string", none⟩,
     ⟨⟨13, 4⟩, some "Expected identifier string", some "not identifier string", none⟩,
     ⟨⟨22, 4⟩, some "Expected keyword", some "not keyword", some keywordHelp⟩] := by krfl

/-- Another text that meets the hypotheses of `C81_partial`: a number with a base, a float, and strings with a wrong
escape, with text behind them, and without an end. -/
theorem C81_example_strings : Faulty .nodes [] [⟨"a ".toList, "0x1g".toList, "hexadecimal number", some longHelp, none⟩,
    ⟨"a 0x1g ".toList, "1.5z".toList, "float", some longHelp, none⟩,
    ⟨"a 0x1g 1.5z ".toList, "\"b\\qc\"".toList, "quoted string", none, none⟩,
    ⟨"a 0x1g 1.5z \"b\\qc\" k=".toList, "\"d\"e".toList, "quoted string", some longHelp, none⟩,
    ⟨"a 0x1g 1.5z \"b\\qc\" k=\"d\"e {f ".toList, "\"g".toList, "quoted string", some openHelp, some openMessage⟩]
    "a 0x1g 1.5z \"b\\qc\" k=\"d\"e {f \"g\n}".toList := by
  have sp (r : Str) : NSpace r [' '] := .space (c := ' ') (by decide) .nil
  have ld (r : Str) : EntryLead r [' '] := .space (sp r) (by simp)
  have bare : ∀ c : Char, IdentChar c → ¬ IsDigit 10 c → c ∉ ['+', '-', '.'] → StrText [c] [c] := fun c h1 h2 h3 =>
    .bare ⟨by simp, by simpa using h1, by
      rintro ⟨sg, k, pt, d, t, hs, hp, hd, e⟩
      rcases hs with _ | _ | _ <;> rcases hp with rfl | rfl <;> simp_all, by
      intro hm
      simp [reserved] at hm⟩
  have one : ∀ c : Char, c ≠ '\\' → c ≠ '"' → ¬ Newline c → ¬ Disallowed c → Quoted [c] [c] := fun c h1 h2 h3 h4 => .plain h1 h2 h3 h4 .nil
  have b1 : BadWord "0x1g".toList "hexadecimal number" (some longHelp) none :=
    .base (sg := []) (pre := ['0', 'x']) (ds := []) (y := []) (c := '1') (l := 'g') .none .hex (by simp) (isDigit_iff.2.1.mpr (by decide)) (by simp)
      (by decide) (by decide) (mt isDigit_iff.2.1.mp (by decide)) (by decide) (by simp)
  have gr : ∀ c : Char, IsDigit 10 c → (litVal 10 [c] : Int) ≤ i128Max → Group [c] := fun c h h' => ⟨c, [], rfl, h, by simp, h'⟩
  have b2 : BadWord "1.5z".toList "float" (some longHelp) none :=
    .float (t := "1.5".toList) (y := []) (l := 'z')
      ⟨[], 1, ['1'], ['.', '5'], [], .none, gr _ (isDigit_iff.1.mpr (by decide)) (by decide),
        Or.inr ⟨['5'], gr _ (isDigit_iff.1.mpr (by decide)) (by decide), rfl⟩, Or.inl rfl, Or.inl (by simp), rfl⟩
      (by decide) (mt isDigit_iff.1.mp (by decide)) (by decide) (by simp)
  have s1 (r : Str) : FaultyEntry r [⟨[], "\"b\\qc\"".toList, "quoted string", none, none⟩] "\"b\\qc\"".toList :=
    .arg (tt := []) (fs := [_]) .none (.string (.escape (t := ['b']) (y := ['c']) (c := 'q')
      (one 'b' (by decide) (by decide) (by decide) (by decide)) (by decide) (by decide) (.char (by decide) .nil)))
  have s2 (r : Str) : FaultyEntry r [⟨"k=".toList, "\"d\"e".toList, "quoted string", some longHelp, none⟩] "k=\"d\"e".toList :=
    .prop (kt := ['k']) (ak := []) (ae := []) (tt := []) (vt := "\"d\"e".toList) (ks := []) (fs := [_])
      (.ok (bare 'k' (by decide) (mt isDigit_iff.1.mp (by decide)) (by decide))) .nil .nil .none
      (.string (.long (t := ['d']) (y := []) (c := 'e') (one 'd' (by decide) (by decide) (by decide) (by decide)) (by decide) .nil))
  have s3 (q : Str) : FaultyEntry ('\n' :: q) [⟨[], "\"g".toList, "quoted string", some openHelp, some openMessage⟩] "\"g".toList :=
    .arg (tt := []) (fs := [_]) .none (.string (.openLine (t := ['g']) (c := '\n') (q := q)
      (one 'g' (by decide) (by decide) (by decide) (by decide)) (by
        intro a w e
        rcases a with _ | ⟨_, _ | _⟩ <;> simp at e) (by decide) rfl))
  have ee (r : Str) := FaultyEntries.cons (r := r) (ld _) (.word .none b1) (.cons (ld _) (.word .none b2) (.cons (ld _) (s1 _) (.cons (ld _) (s2 _) .nil)))
  have inner (x : Str) := Faulty.items (r := '}' :: x) .leadNil (.lastTerm (m := ['\n'])
    (.leaf .none (.ok (bare 'f' (by decide) (mt isDigit_iff.1.mp (by decide)) (by decide))) (.cons (ld _) (s3 _) .nil) (.midSpace .nil))
    (Or.inr (Or.inl (Or.inr ⟨'\n', rfl, by decide, by simp⟩))) .leadNil)
  have a := Faulty.block (r := []) .none (.ok (bare 'a' (by decide) (mt isDigit_iff.1.mp (by decide)) (by decide)))
    (ee _) (fun x => .midSpace (sp _)) inner (.tailSpace .nil)
  exact Faulty.items (r := []) .leadNil (.last a)

theorem C81_example_strings_report : Document.parseD "a 0x1g 1.5z \"b\\qc\" k=\"d\"e {f \"g\n}".toList = .err
    [⟨⟨2, 4⟩, some "Expected hexadecimal number", some "not hexadecimal number", some longHelp⟩,
     ⟨⟨7, 4⟩, some "Expected float", some "not float", some longHelp⟩,
     ⟨⟨12, 6⟩, some "Expected quoted string", some "not quoted string", none⟩,
     ⟨⟨21, 4⟩, some "Expected quoted string", some "not quoted string", some longHelp⟩,
     ⟨⟨29, 2⟩, some "Unexpected newline in single-line quoted string", some "not quoted string", some openHelp⟩] := by krfl

/-- A text with mistakes in type annotations that meets the hypotheses of `C81_partial`. -/
theorem C81_example_types : Faulty .nodes [] [⟨"(".toList, "3".toList, "type name", none, some "invalid contents inside type annotation"⟩,
    ⟨"(3)a (".toList, "true".toList, "identifier string", none, none⟩,
    ⟨"(3)a (true)b (".toList, "#foo".toList, "type name", none, some "invalid contents inside type annotation"⟩,
    ⟨"(3)a (true)b ".toList, "(#foo)1x".toList, "integer", some longHelp, none⟩]
    "(3)a (true)b (#foo)1x".toList := by
  have ld (r : Str) : EntryLead r [' '] := .space (.space (c := ' ') (by decide) .nil) (by simp)
  have bare : ∀ c : Char, IdentChar c → ¬ IsDigit 10 c → c ∉ ['+', '-', '.'] → StrText [c] [c] := fun c h1 h2 h3 =>
    .bare ⟨by simp, by simpa using h1, by
      rintro ⟨sg, k, pt, d, t, hs, hp, hd, e⟩
      rcases hs with _ | _ | _ <;> rcases hp with rfl | rfl <;> simp_all, by
      intro hm
      simp [reserved] at hm⟩
  have t1 (r : Str) : FaultyTy r [⟨"(".toList, "3".toList, "type name", none, some "invalid contents inside type annotation"⟩] "(3)".toList :=
    .some (it := ['3']) (b := []) (a := []) (f := []) (fs := [_])
      (.number (by decide) ⟨[], 1, [], '3', [], .none, Or.inl rfl, isDigit_iff.1.mpr (by decide), rfl⟩) .nil .nil .nil
  have t2 (r : Str) : FaultyTy r [⟨"(".toList, "true".toList, "identifier string", none, none⟩] "(true)".toList :=
    .some (it := "true".toList) (b := []) (a := []) (f := []) (fs := [_]) (.string (.reserved ⟨by decide, by decide⟩)) .nil .nil .nil
  have t3 (r : Str) : FaultyTy r [⟨"(".toList, "#foo".toList, "type name", none, some "invalid contents inside type annotation"⟩] "(#foo)".toList :=
    .some (it := "#foo".toList) (b := []) (a := []) (f := []) (fs := [_]) (.keyword (y := "foo".toList) (by decide) (by decide)) .nil .nil .nil
  have wd (r : Str) : FaultyValue r [] ['b'] := .ok (.str (bare 'b' (by decide) (mt isDigit_iff.1.mp (by decide)) (by decide)))
  exact Faulty.items (r := []) .leadNil (.last (.leaf (t1 _) (.ok (bare 'a' (by decide) (mt isDigit_iff.1.mp (by decide)) (by decide)))
    (.cons (ld _) (.arg (t2 _) (wd _)) (.cons (ld _) (.word (t3 _) C81_example_word) .nil)) (.midSpace .nil)))

theorem C81_example_types_report : Document.parseD "(3)a (true)b (#foo)1x".toList = .err
    [⟨⟨1, 1⟩, some "invalid contents inside type annotation", some "not type name", none⟩,
     ⟨⟨6, 4⟩, some "Expected identifier string", some "not identifier string", none⟩,
     ⟨⟨14, 4⟩, some "invalid contents inside type annotation", some "not type name", none⟩,
     ⟨⟨13, 8⟩, some "Expected integer", some "not integer", some longHelp⟩] := by krfl

/-- C81 is violated by a string with a wrong escape and a space behind it: it is reported twice, as two words. -/
theorem C81_violated_string : Document.parseD "a \"b\\q c\" d".toList = .err
    [⟨⟨2, 4⟩, some "Expected quoted string", some "not quoted string", none⟩,
     ⟨⟨7, 2⟩, some "Expected identifier string", some "not identifier string", some longHelp⟩] := by krfl

/-- C81 is violated by a float without exponent: what is reported spans the next word too, and that this one is
mistaken is not reported. -/
theorem C81_violated_exponent : ∃ help, Document.parseD "a 1e true".toList = .err
    [⟨⟨2, 7⟩, some "Non-digit character found in the exponent part of a float", some "not float", some help⟩] :=
  ⟨"Floats with exponent parts should look like '2.0e123', or '43.3E-4'.", by krfl⟩

/-- `C81_violated_property` for a text with anything behind it. -/
theorem C81_example_property (y : Str) : Document.parseD ("a b=(3)0x1g".toList ++ y) = .err
    [⟨⟨5, 1⟩, some "invalid contents inside type annotation", some "not type name", none⟩,
     ⟨⟨4, 6⟩, some "Expected property value", some "not property value", some longHelp⟩] := by
  have bare : ∀ c : Char, IdentChar c → ¬ IsDigit 10 c → c ∉ ['+', '-', '.'] → StrText [c] [c] := fun c h1 h2 h3 =>
    .bare ⟨by simp, by simpa using h1, by
      rintro ⟨sg, k, pt, d, t, hs, hp, hd, e⟩
      rcases hs with _ | _ | _ <;> rcases hp with rfl | rfl <;> simp_all, by
      intro hm
      simp [reserved] at hm⟩
  have t1 (r : Str) : FaultyTy r [⟨"(".toList, "3".toList, "type name", none, some "invalid contents inside type annotation"⟩] "(3)".toList :=
    .some (it := ['3']) (b := []) (a := []) (f := []) (fs := [_])
      (.number (by decide) ⟨[], 1, [], '3', [], .none, Or.inl rfl, isDigit_iff.1.mpr (by decide), rfl⟩) .nil .nil .nil
  have hx : Halts "0x1".toList ('g' :: y) longHelp :=
    .base (sg := []) (pre := "0x".toList) (ds := []) (c := '1') .none .hex (by simp) (isDigit_iff.2.1.mpr (by decide)) (by simp)
      (by decide) (by decide) (mt isDigit_iff.2.1.mp (by decide)) (by decide)
  have h := C81_violated_property (tt := []) (T := []) (w := [' ']) (wb := []) (wa := []) .none
    (bare 'a' (by decide) (mt isDigit_iff.1.mp (by decide)) (by decide)) .nil (.space (.space (c := ' ') (by decide) .nil) (by simp))
    (bare 'b' (by decide) (mt isDigit_iff.1.mp (by decide)) (by decide)) .nil .nil (t1 _) hx
  exact h

/-- `C81_violated_missing` for a text with anything behind it. -/
theorem C81_example_missing (y : Str) : Document.parseD ("a true b= \n".toList ++ y) = .err
    [⟨⟨2, 4⟩, some "Expected identifier string", some "not identifier string", none⟩,
     ⟨⟨10, 0⟩, some "Expected property value", some "not property value", none⟩] := by
  have bare : ∀ c : Char, IdentChar c → ¬ IsDigit 10 c → c ∉ ['+', '-', '.'] → StrText [c] [c] := fun c h1 h2 h3 =>
    .bare ⟨by simp, by simpa using h1, by
      rintro ⟨sg, k, pt, d, t, hs, hp, hd, e⟩
      rcases hs with _ | _ | _ <;> rcases hp with rfl | rfl <;> simp_all, by
      intro hm
      simp [reserved] at hm⟩
  have sp (r : Str) : NSpace r [' '] := .space (c := ' ') (by decide) .nil
  have ld (r : Str) : EntryLead r [' '] := .space (sp r) (by simp)
  have h := C81_violated_missing (tt := []) (T := " true".toList) (w := [' ']) (wb := []) (wa := [' ']) (r := '\n' :: y) .none
    (bare 'a' (by decide) (mt isDigit_iff.1.mp (by decide)) (by decide))
    (.cons (ld _) (.arg .none (.string (.reserved (x := "true".toList) ⟨by decide, by decide⟩))) .nil) (ld _)
    (bare 'b' (by decide) (mt isDigit_iff.1.mp (by decide)) (by decide)) .nil (sp _)
    (by rintro c q ⟨⟩; decide)
  exact h

/-- C81 is violated by a number that begins with a point: it is reported twice, and not as a number. -/
theorem C81_violated_point : Document.parseD "a .5".toList = .err
    [⟨⟨2, 1⟩, some "Expected end of document", some "not EOF", none⟩,
     ⟨⟨3, 1⟩, some "Found invalid node name", some "not node name", some nameHelp⟩] := by krfl

/-- C81 is violated by an integer that is too large: it is reported twice, and not as an integer. -/
theorem C81_violated_large : Document.parseD "a 170141183460469231731687303715884105728".toList = .err
    [⟨⟨2, 1⟩, some "Expected end of document", some "not EOF", none⟩,
     ⟨⟨3, 38⟩, some "Found invalid node name", some "not node name", some nameHelp⟩] := by krfl

/-- Mistakes in and in front of a block that is not closed. If the text of the nodes in the block is lost because of mistaken
names, the block counts as empty, and what follows the brace is not reported. -/
theorem C77_example_mistakes : (∃ more, Document.parseD "a 1x {b 1x".toList = .err
      (⟨⟨2, 2⟩, some "Expected integer", some "not integer", some longHelp⟩ :: ⟨⟨8, 2⟩, some "Expected integer", some "not integer", some longHelp⟩ ::
        ⟨⟨5, 1⟩, some "No closing '}' for child block", some "not closed", none⟩ :: more) ∧ more ≠ []) ∧
    Document.parseD "a {true".toList = .err
      [⟨⟨3, 4⟩, some "Expected identifier string", some "not identifier string", none⟩,
       ⟨⟨3, 4⟩, some "Found invalid node name", some "not node name", some nameHelp⟩,
       ⟨⟨2, 1⟩, some "No closing '}' for child block", some "not closed", none⟩] :=
  ⟨⟨[⟨⟨6, 4⟩, some "Closing '}' was not found after nodes", some "not closed", none⟩], by krfl, by simp⟩, by krfl⟩

/-- `C77_mistakes` has such cases. -/
theorem C77_example_faulty : ∃ more, Document.parseD "a 1x {b 1x".toList = .err
      (⟨⟨2, 2⟩, some "Expected integer", some "not integer", some longHelp⟩ :: ⟨⟨8, 2⟩, some "Expected integer", some "not integer", some longHelp⟩ ::
        ⟨⟨5, 1⟩, some "No closing '}' for child block", some "not closed", none⟩ :: more) := by
  have bare : ∀ c : Char, IdentChar c → ¬ IsDigit 10 c → c ∉ ['+', '-', '.'] → StrText [c] [c] := fun c h1 h2 h3 =>
    .bare ⟨by simp, by simpa using h1, by
      rintro ⟨sg, k, pt, d, t, hs, hp, hd, e⟩
      rcases hs with _ | _ | _ <;> rcases hp with rfl | rfl <;> simp_all, by
      intro hm
      simp [reserved] at hm⟩
  have sp (r : Str) : NSpace r [' '] := .space (c := ' ') (by decide) .nil
  have ld (r : Str) : EntryLead r [' '] := .space (sp r) (by simp)
  have es (r : Str) := FaultyEntries.cons (r := r) (ld _) (.word .none C81_example_word) .nil
  have Z := Faulty.items (r := []) .leadNil (.last (.leaf (r := []) .none
    (.ok (bare 'b' (by decide) (mt isDigit_iff.1.mp (by decide)) (by decide))) (es _) (.midSpace .nil)))
  obtain ⟨more, _, h⟩ := C77_mistakes (L := []) (w := [' ']) .leadNil .nil .none (.ok (bare 'a' (by decide) (mt isDigit_iff.1.mp (by decide)) (by decide))) (es _)
    (fun x => .midSpace (sp _)) Z
  exact ⟨more, h⟩

/-- Another node in front. -/
theorem C77_example_nodes : Document.parseD "b\nb {b".toList = .err
    [⟨⟨4, 1⟩, some "No closing '}' for child block", some "not closed", none⟩,
     ⟨⟨5, 1⟩, some "Closing '}' was not found after nodes", some "not closed", none⟩] := by
  have bare : StrText ['b'] ['b'] := bare_letter (by decide) (by decide)
  have B (r : Str) : Faulty .node r [] ['b'] :=
    Faulty.leaf (r := r) (tt := []) (T := []) (w := []) .none (.ok bare) .nil (.midSpace .nil)
  have h := C77_nodes (L := []) (P := "b\n".toList) (hs := []) (tt := []) (nt := ['b']) (T := []) (w := [' ']) (t := ['b'])
    (ds := [.mk none ['b'] [] none]) .leadNil
    (.cons (m := ['\n']) (L := []) (B _) (Or.inr (Or.inl (Or.inr ⟨'\n', rfl, by decide, by simp⟩))) .leadNil .nil) .none bare .nil
    (fun x => .midSpace (.space (c := ' ') (by decide) .nil)) (gives_iff.mpr (by krfl)) (by rintro q ⟨⟩)
  exact h

/-- Mistakes on both sides of a closing brace. -/
theorem C78_example_mistakes : Document.parseD "b 1x}b 1x".toList = .err
    [⟨⟨2, 2⟩, some "Expected integer", some "not integer", some longHelp⟩,
     ⟨⟨4, 1⟩, some "Expected end of document", some "not EOF", none⟩,
     ⟨⟨7, 2⟩, some "Expected integer", some "not integer", some longHelp⟩] := by
  have bare : StrText ['b'] ['b'] :=
    .bare ⟨by simp, by decide, by
      have hb : ¬ IsDigit 10 'b' := mt isDigit_iff.1.mp (by decide)
      rintro ⟨sg, k, pt, d, t, hs, hp, hd, e⟩
      rcases hs with _ | _ | _ <;> rcases hp with rfl | rfl <;> simp at e
      exact hb (e.1 ▸ hd), by
      intro hm
      simp [reserved] at hm⟩
  have ld (r : Str) : EntryLead r [' '] := .space (.space (c := ' ') (by decide) .nil) (by simp)
  have Z (r : Str) := Faulty.items (r := r) .leadNil (.last (.leaf (r := r) .none (.ok bare)
    (.cons (ld _) (.word .none C81_example_word) .nil) (.midSpace .nil)))
  have h := C78_mistakes (Z _) (Z _)
  exact h

/-- Numbers with another base than ten and no digit, with further mistakes behind them. -/
theorem C81_example_digit : BadWord "-0xg".toList "hexadecimal number" none none ∧ BadWord "0b_1".toList "binary number" none none ∧
    Document.parseD "a -0xg {b 0b_1 true}".toList = .err
      [⟨⟨2, 4⟩, some "Expected hexadecimal number", some "not hexadecimal number", none⟩,
       ⟨⟨10, 4⟩, some "Expected binary number", some "not binary number", none⟩,
       ⟨⟨15, 4⟩, some "Expected identifier string", some "not identifier string", none⟩] :=
  ⟨.noDigit (sg := ['-']) (pre := ['0', 'x']) (y := []) (l := 'g') .minus .hex (by decide) (mt isDigit_iff.2.1.mp (by decide)) (by simp),
   .noDigit (sg := []) (pre := ['0', 'b']) (y := ['1']) (l := '_') .none .bin (by decide) (mt isDigit_iff.2.2.2.mp (by decide)) (by decide),
   by krfl⟩

/-- Floats without digits behind their point or in their exponent, with further mistakes behind them. -/
theorem C81_example_float : BadWord "1.x".toList "float" none (some fractionMessage) ∧
    BadWord "-2.5e+y".toList "float" (some exponentHelp) (some exponentMessage) ∧
    Document.parseD "a 1.x {b -2.5e+y true}".toList = .err
      [⟨⟨2, 3⟩, some fractionMessage, some "not float", none⟩,
       ⟨⟨9, 7⟩, some exponentMessage, some "not float", some exponentHelp⟩,
       ⟨⟨17, 4⟩, some "Expected identifier string", some "not identifier string", none⟩] := by
  have g : ∀ {c : Char}, isDecDigit c = true → (litVal 10 [c] : Int) ≤ i128Max → Group [c] :=
    fun h h' => ⟨_, [], rfl, isDigit_iff.1.mpr h, by simp, h'⟩
  refine ⟨.fraction (sg := []) (ip := ['1']) (y := []) (l := 'x') .none (g (by decide) (by decide)) (mt isDigit_iff.1.mp (by decide)) (by simp),
    .exponent (sg := ['-']) (ip := ['2']) (fp := ['.', '5']) (es := ['+']) (e := 'e') (y := []) (l := 'y') .minus (g (by decide) (by decide))
      (Or.inr ⟨['5'], g (by decide) (by decide), rfl⟩) (Or.inl rfl) .plus (mt isDigit_iff.1.mp (by decide)) (by simp) (by simp), ?_⟩
  krfl

/-- Mistakes that are not reported, as they stand behind a number or a keyword that lacks something. -/
theorem C81_example_lacking : BadWord "1.\ntrue".toList "float" none (some fractionMessage) ∧ BadWord "# true".toList "keyword" (some keywordHelp) none ∧
    Document.parseD "a 1.\ntrue".toList = .err [⟨⟨2, 7⟩, some fractionMessage, some "not float", none⟩] ∧
    Document.parseD "a # true nan".toList = .err
      [⟨⟨2, 6⟩, some "Expected keyword", some "not keyword", some keywordHelp⟩,
       ⟨⟨9, 3⟩, some "Expected identifier string", some "not identifier string", none⟩] ∧
    Document.parseD "a {b 1.}".toList = .err
      [⟨⟨5, 3⟩, some fractionMessage, some "not float", none⟩,
       ⟨⟨2, 1⟩, some "No closing '}' for child block", some "not closed", none⟩,
       ⟨⟨3, 5⟩, some "Closing '}' was not found after nodes", some "not closed", none⟩] := by
  refine ⟨.fraction (sg := []) (ip := ['1']) .none ⟨_, [], rfl, isDigit_iff.1.mpr (by decide), by simp, by decide⟩ (mt isDigit_iff.1.mp (by decide)) (by decide),
    .hash (c := ' ') (y := "true".toList) (by decide) (by decide) (by decide) (by decide), by krfl, by krfl, by krfl⟩

/-- A string over several lines with text right behind it, with further mistakes behind it; raw ones likewise. -/
theorem C81_example_lines : BadString " true".toList
      ⟨[], "\"\"\"\n x\n \"\"\"z".toList, "quoted string", some longHelp, none⟩ "\"\"\"\n x\n \"\"\"z".toList ∧
    BadString " true".toList
      ⟨[], "#\"\"\"\n x\n \"\"\"#z".toList, "raw string", some longHelp, none⟩ "#\"\"\"\n x\n \"\"\"#z".toList ∧
    Document.parseD "a \"\"\"\n x\n \"\"\"z true".toList = .err
      [⟨⟨2, 12⟩, some "Expected quoted string", some "not quoted string", some longHelp⟩,
       ⟨⟨15, 4⟩, some "Expected identifier string", some "not identifier string", none⟩] ∧
    Document.parseD "a #\"\"\"\n x\n \"\"\"#z true".toList = .err
      [⟨⟨2, 14⟩, some "Expected raw string", some "not raw string", some longHelp⟩,
       ⟨⟨17, 4⟩, some "Expected identifier string", some "not identifier string", none⟩] := by
  have nl (t : Str) : NewlineSeq ['\n'] t := Or.inr ⟨'\n', rfl, by decide, by rintro ⟨⟩⟩
  have h1 : Multi [' '] " x\n ".toList [['x']] :=
    .line (c := ['x']) (.plain (by decide) (by decide) (by decide) (by decide) .nil) ⟨'x', by simp, by decide⟩ (nl _) (.close (w := []) .nil)
  have h2 : RawMulti 1 [' '] " x\n ".toList [['x']] :=
    .line (c := ['x']) (by decide) (by
      rintro ⟨a, b, e⟩
      have := congrArg List.length e
      simp [hashes] at this
      omega) ⟨'x', by simp, by decide⟩ (nl _) .close
  have hn : NoClose " true".toList := by
    intro a d b e _ hd
    have : ∀ c ∈ " true".toList, c ≠ '#' ∧ c ≠ '"' := by decide
    have := this d (by rw [e]; simp)
    rcases hd with rfl | rfl
    · exact absurd rfl this.1
    · exact absurd rfl this.2
  exact ⟨.multiLong (nl := ['\n']) (t := " x\n ".toList) (c := 'z') (y := []) (nl _) (by decide) h1 (by decide) .nil,
    .rawMultiLong (n := 0) (nl := ['\n']) (t := " x\n ".toList) (c := 'z') (y := []) (nl _) (by decide) h2 (by decide) (by decide) (by simp) hn,
    by krfl, by krfl⟩

/-- C81 is violated by a mistake within a string over several lines, such as a line that is not indented as the last one: the
closing quotation marks are reported, too, as a mistaken string and as the name of a node. -/
theorem C81_violated_lines : ∃ help, Document.parseD "a \"\"\"\n  x\n y\n  \"\"\"".toList = .err
    [⟨⟨2, 8⟩, some "matching multiline string prefix", some "not quoted string", some help⟩,
     ⟨⟨15, 3⟩, some tripleMessage, some "not quoted string", none⟩,
     ⟨⟨15, 3⟩, some "Found invalid node name", some "not node name", some nameHelp⟩] :=
  ⟨"Multi-line string bodies must be prefixed by the exact same whitespace as the leading whitespace before the closing '\"\"\"'", by krfl⟩

/-- C81 is violated by a keyword with text right behind it: the first character of that text is reported as if the document
should end there, and the rest is taken for another node. -/
theorem C81_violated_keyword : Document.parseD "a #truex b=1".toList = .err
    [⟨⟨7, 1⟩, some "Expected end of document", some "not EOF", none⟩,
     ⟨⟨10, 1⟩, some "Expected end of document", some "not EOF", none⟩,
     ⟨⟨11, 1⟩, some "Found invalid node name", some "not node name", some nameHelp⟩] := by krfl

/-- Three quotation marks in one line, as names, arguments and keys, with further mistakes behind them. -/
theorem C81_example_triple : BadString [' '] ⟨[], "\"\"\"b\"\"\"".toList, "quoted string", none, some tripleMessage⟩ "\"\"\"b\"\"\"".toList ∧
    Document.parseD "a \"\"\"b\"\"\" true {\"\"\" 1x}".toList = .err
      [⟨⟨2, 7⟩, some tripleMessage, some "not quoted string", none⟩,
       ⟨⟨10, 4⟩, some "Expected identifier string", some "not identifier string", none⟩,
       ⟨⟨16, 3⟩, some tripleMessage, some "not quoted string", none⟩,
       ⟨⟨16, 3⟩, some "Found invalid node name", some "not node name", some nameHelp⟩,
       ⟨⟨20, 2⟩, some "Expected integer", some "not integer", some longHelp⟩] :=
  ⟨.triple (y := ['b']) (z := ['"', '"', '"']) (.char (by decide) .nil) (Or.inr rfl) (by rintro c q ⟨⟩; decide), by krfl⟩

/-- A raw string with text right behind it, and a `#` with no space behind it later in the text: all mistakes are
reported. -/
theorem C81_example_raw : BadString " true\n#d".toList
      ⟨[], "#\"b\"#c".toList, "raw string", some longHelp, none⟩ "#\"b\"#c".toList ∧
    Document.parseD "a #\"b\"#c true\n#d".toList = .err
      [⟨⟨2, 6⟩, some "Expected raw string", some "not raw string", some longHelp⟩,
       ⟨⟨9, 4⟩, some "Expected identifier string", some "not identifier string", none⟩,
       ⟨⟨14, 2⟩, some "Found invalid node name", some "not node name", some nameHelp⟩] := by
  have key : ∀ y : Str, (∀ x ∈ y, x ≠ '#' ∧ x ≠ '"') → NoClose (y ++ "#d".toList) := by
    intro y
    induction y with
    | nil =>
      rintro _ a d b e ha hd
      cases a with
      | nil => cases e; exact ⟨'d', [], rfl, by decide, by decide⟩
      | cons x a =>
        have h1 : '#' = x := (List.cons.inj e).1
        exact absurd h1.symm (ha x (by simp)).1
    | cons c y ih =>
      rintro hy a d b e ha hd
      cases a with
      | nil =>
        cases e
        have := hy c (by simp)
        simp [this] at hd
      | cons x a =>
        exact ih (fun z hz => hy z (by simp [hz])) a d b (List.cons.inj e).2 (fun z hz => ha z (by simp [hz])) hd
  have hb : RawBody 1 ['b'] := by
    refine ⟨by decide, ?_, by decide⟩
    rintro ⟨a, b, e⟩
    have := congrArg List.length e
    simp [hashes] at this
    omega
  have hn := key " true\n".toList (by decide)
  exact ⟨.rawLong (n := 0) (t := ['b']) (y := []) (c := 'c') hb (by decide) (by simp) hn, by krfl⟩

/-- C81 is violated by a raw string with text right behind it: all text up to the next quotation mark or `#` is left
out if that is followed by space, here a reserved word and the beginning of the next node. -/
theorem C81_violated_raw : Document.parseD "a #\"b\"#c true\nd \" e\"".toList = .err
    [⟨⟨2, 15⟩, some "Expected raw string", some "not raw string", some longHelp⟩,
     ⟨⟨18, 2⟩, some "Expected identifier string", some "not identifier string", some longHelp⟩] := by krfl

theorem C81_violated : Document.parseD "a b=1x\nc true w".toList = .err
    [⟨⟨4, 1⟩, some "Expected property value", some "not property value", some longHelp⟩] := by krfl

/-- A node that meets the hypotheses of `C81_front`, in front of a text with another mistake. -/
theorem C81_example_front (r : Str) : Faulty .node r [⟨"\"a\" ".toList, "1x".toList, "integer", some longHelp, none⟩] "\"a\" 1x".toList :=
  .leaf (nt := "\"a\"".toList) .none (.ok (.quoted (t := ['a']) (v := ['a']) (.plain (by decide) (by decide) (by decide) (by decide) .nil)))
    (.cons (w := [' ']) (.space (.space (c := ' ') (by decide) .nil) (by simp)) (.word .none C81_example_word) .nil) (.midSpace .nil)
theorem C81_example_after : Document.parseD "\"a\" 1x\n}".toList = .err
    [⟨⟨4, 2⟩, some "Expected integer", some "not integer", some longHelp⟩,
     ⟨⟨7, 1⟩, some "Expected end of document", some "not EOF", none⟩] := by krfl

end

end Kdl
