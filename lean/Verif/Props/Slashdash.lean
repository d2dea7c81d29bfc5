import Verif.Lemmas.Parser.Gram
import Verif.Lemmas.KernelRfl
import Verif.Props.Values
import Verif.Props.Build
/-
C32, C38, C47: slashdash, order of entries, and texts of documents in general.
-/

namespace Kdl
open Spec

section
variable [FloatIO]

/-- The data of a parsed document. -/
def parsedData : ParseResult Document → Option (List (SNode Value))
  | .ok d => some (semDoc id d)
  | _ => none

/-- The document text `t` is accepted, and the document has the data `ds`. -/
def Gives (t : Str) (ds : List (SNode Value)) : Prop := ∃ d, Document.parse t = .ok d ∧ semDoc id d = ds

theorem gives_iff {t : Str} {ds : List (SNode Value)} : Gives t ds ↔ parsedData (Document.parse t) = some ds := by
  unfold Gives
  cases h : Document.parse t with
  | ok d => simp [parsedData]
  | err => simp [parsedData]
  | panic => simp [parsedData]

/-! ### C47 -/

/-- **C47**: every text of a document in the sense of the grammar is accepted, and the
parsed document has the data that the grammar gives it. -/
theorem C47_accepted {ds : List (SNode Value)} {t : Str} (h : DocumentText ds t) : Gives t ds := h.parse

/-- **C47**: the data of a text is unique. -/
theorem C47_unique {ds ds' : List (SNode Value)} {t : Str} (h : DocumentText ds t) (h' : DocumentText ds' t) : ds = ds' := by
  obtain ⟨d, h1, h2⟩ := h.parse
  obtain ⟨d', h3, h4⟩ := h'.parse
  rw [h1] at h3
  cases h3
  rw [← h2, ← h4]

/-! ### C38 -/

/-- **C38**: a name followed by entries, with any white space, comments and slashdashed
entries between them, gives exactly those entries, in order. -/
theorem C38_entries {nt nm T : Str} {ds : List (SEntry Value)} (hn : StrText nt nm) (hT : EntriesText ds T) :
    Gives (nt ++ T) [.mk none nm ds none] := by
  have h := Text.items (r := []) .leadNil (.last (.leaf (ty := none) .none hn hT (.midSpace .nil)))
  have h : DocumentText [.mk none nm ds none] (nt ++ T) := by simpa using h
  exact h.parse

/-- **C38**: in particular for entries printed by `Display`, separated by spaces, all of
whose strings and values can be written. -/
theorem C38_printed [LawfulFloatIO] {nm : Str} {es : List Entry} (hn : Writable nm) (hes : ∀ e ∈ es, BuiltEntry e ∧ EntryWritable e) :
    Gives ((Ident.ofStr nm).display ++ es.flatMap fun e => ' ' :: e.display)
      [.mk none nm (es.map (semEntry canonValue)) none] := by
  refine C38_entries (StrText.ident (i := .ofStr nm) rfl hn) (EntriesText.write fun e he => ?_)
  have h := BuiltEntry.shape (hes e he).1
  exact ⟨h.format, h.name, h.ty, (hes e he).2⟩

/-! ### C32: entries -/

/-- **C32**: a slashdashed entry between two others is left out, whatever line space
follows the slashdash. -/
theorem C32_entry {nt nm A w b E w' F B : Str} {d e : SEntry Value} {as bs : List (SEntry Value)} (hn : StrText nt nm)
    (hA : EntriesText as A) (hw : ∀ r, NSpace r w) (hne : w ≠ []) (hb : LSpace E b) (hE : EntryText e E)
    (hw' : ∀ r, NSpace r w') (hne' : w' ≠ []) (hF : EntryText d F) (hB : EntriesText bs B) :
    Gives (nt ++ (A ++ (w ++ ("/-".toList ++ (b ++ (E ++ (w' ++ (F ++ B)))))))) [.mk none nm (as ++ d :: bs) none] := by
  have app : ∀ {as bs : List (SEntry Value)} {A B : Str}, EntriesText as A → EntriesText bs B →
      EntriesText (as ++ bs) (A ++ B) := by
    intro as bs A B hA hB
    induction hA with
    | nil => exact hB
    | cons h1 h2 _ ih =>
      have := EntriesText.cons h1 h2 ih
      simpa using this
  have h := C38_entries hn (app hA (.cons (.slash (hw _) hne (.one hb hE) (hw' _) hne') hF hB))
  simpa using h

/-- **C32**: so is a slashdashed entry after the last entry. -/
theorem C32_last {nt nm A w b E : Str} {e : SEntry Value} {as : List (SEntry Value)} (hn : StrText nt nm)
    (hA : EntriesText as A) (hw : ∀ r, NSpace r w) (hne : w ≠ []) (hb : LSpace E b) (hE : EntryText e E) :
    Gives (nt ++ (A ++ (w ++ ("/-".toList ++ (b ++ E))))) [.mk none nm as none] := by
  have h := Text.items (r := []) .leadNil (.last (.leaf (ty := none) .none hn hA (.midEntries (hw _) hne (.one hb hE) .nil)))
  have h : DocumentText [.mk none nm as none] (nt ++ (A ++ (w ++ ("/-".toList ++ (b ++ E))))) := by simpa using h
  exact h.parse

/-! ### C32: children -/

/-- **C32**: a slashdashed children block is left out, and a later one is kept. -/
theorem C32_children {nt nm A w b D w' D' : Str} {as : List (SEntry Value)} {cs cs' : List (SNode Value)} (hn : StrText nt nm)
    (hA : EntriesText as A) (hw : ∀ r, NSpace r w) (hne : w ≠ []) (hb : LSpace ['{'] b)
    (hD : ∀ x, Text (.nodes cs) ('}' :: x) D) (hw' : ∀ r, NSpace r w') (hD' : ∀ x, Text (.nodes cs') ('}' :: x) D') :
    Gives (nt ++ (A ++ (w ++ ("/-".toList ++ (b ++ ('{' :: (D ++ ['}']))))))) [.mk none nm as none] ∧
    Gives (nt ++ (A ++ (w ++ ("/-".toList ++ (b ++ ('{' :: (D ++ ('}' :: (w' ++ ('{' :: (D' ++ ['}'])))))))))))
      [.mk none nm as (some cs')] ∧
    Gives (nt ++ (A ++ (w ++ ('{' :: (D' ++ ('}' :: (w' ++ ("/-".toList ++ (b ++ ('{' :: (D ++ ['}'])))))))))))
      [.mk none nm as (some cs')] := by
  refine ⟨?_, ?_, ?_⟩
  · have h := Text.items (r := []) .leadNil (.last (k := false) (.leaf (ty := none) .none hn hA
      (.midBlocks (hw _) hne (.blocksOne hb hD) .nil)))
    exact Spec.DocumentText.parse (by simpa using h)
  · have h := Text.items (r := []) .leadNil (.last (k := false) (.block (ty := none) .none hn hA
      (fun x => .midBlocks (hw _) hne (.blocksOne hb hD) (hw' _)) hD' (.tailSpace .nil)))
    exact Spec.DocumentText.parse (by simpa using h)
  · have h := Text.items (r := []) .leadNil (.last (k := false) (.block (ty := none) .none hn hA
      (fun x => .midSpace (hw _)) hD' (.tailBlocks (hw' _) (.blocksOne hb hD) .nil)))
    exact Spec.DocumentText.parse (by simpa using h)

/-! ### C32: nodes -/

/-- **C32**, partial: a slashdashed node that ends with a newline, in front of a
document, is left out with all its entries and children. Missing: a slashdashed node
that ends with a semicolon, for which it fails. -/
theorem C32_node_partial {k : Bool} {b N D : Str} {d : SNode Value} {ds : List (SNode Value)} (hb : LSpace N b)
    (hN : Text (.node k d) ('\n' :: D) N) (hD : DocumentText ds D) :
    Gives ("/-".toList ++ (b ++ (N ++ '\n' :: D))) ds := by
  have hD : Text (.nodes ds) [] D := hD
  have hs : NodeStop ('\n' :: D) := Or.inr ⟨_, _, rfl, Or.inr (Or.inr (Or.inl (by decide)))⟩
  have nl : ∀ R, LSpace R ['\n'] := fun R => LSpace.newline (m := ['\n']) (t := []) (Or.inr ⟨'\n', rfl, by decide, fun e => absurd e (by decide)⟩) .nil
  cases hD with
  | empty hL =>
    have h := Text.empty (.leadNode (r := []) (L := ['\n'] ++ _) hb (by simpa using hN) (Or.inl (by simpa using hs)) (.leadSpace (nl _) hL))
    exact Spec.DocumentText.parse (by simpa using h)
  | items hL hT =>
    have h := Text.items (.leadNode (r := _ ++ []) (L := ['\n'] ++ _) hb (by simpa using hN) (Or.inl (by simpa using hs))
      (.leadSpace (nl _) hL)) hT
    exact Spec.DocumentText.parse (by simpa using h)

/-- **C32**, partial: the same for a slashdashed node after a first node. -/
theorem C32_node_after_partial {k k' : Bool} {B b N D : Str} {e d : SNode Value} {ds : List (SNode Value)}
    (hB : Text (.node k' e) ('\n' :: ("/-".toList ++ (b ++ (N ++ '\n' :: D)))) B) (hb : LSpace N b)
    (hN : Text (.node k d) ('\n' :: D) N) (hD : DocumentText ds D) :
    Gives (B ++ '\n' :: ("/-".toList ++ (b ++ (N ++ '\n' :: D)))) (e :: ds) := by
  have hD : Text (.nodes ds) [] D := hD
  have hs : NodeStop ('\n' :: D) := Or.inr ⟨_, _, rfl, Or.inr (Or.inr (Or.inl (by decide)))⟩
  have nl : ∀ R, NewlineSeq ['\n'] R := fun R => Or.inr ⟨'\n', rfl, by decide, fun e => absurd e (by decide)⟩
  have nl' : ∀ R, LSpace R ['\n'] := fun R => LSpace.newline (m := ['\n']) (t := []) (nl _) .nil
  cases hD with
  | empty hL =>
    have hl := Text.leadNode (r := []) (L := ['\n'] ++ _) hb (by simpa using hN) (Or.inl (by simpa using hs)) (.leadSpace (nl' _) hL)
    have h := Text.items (r := []) .leadNil (.lastTerm (m := ['\n']) (by simpa using hB) (Or.inr (Or.inl (nl _))) hl)
    exact Spec.DocumentText.parse (by simpa using h)
  | items hL hT =>
    have hl := Text.leadNode (r := _ ++ []) (L := ['\n'] ++ _) hb (by simpa using hN) (Or.inl (by simpa using hs)) (.leadSpace (nl' _) hL)
    have h := Text.items (r := []) .leadNil (.cons (m := ['\n']) (by simpa using hB) (Or.inr (Or.inl (nl _))) hl hT)
    exact Spec.DocumentText.parse (by simpa using h)

/-- C32 is violated: `a; b` is a document of two nodes, but slashdashing the first node
makes the document an error. -/
theorem C32_violated : Gives "a; b".toList [.mk none ['a'] [] none, .mk none ['b'] [] none] ∧
    Document.parse "/-a; b".toList = .err :=
  ⟨gives_iff.mpr (by krfl), by krfl⟩

/-! ### Concrete cases -/

omit [FloatIO] in
theorem strText_of {t v : Str} (h : stringP t = .ok v []) : StrText t v := by
  obtain ⟨t', e, h, _⟩ := stringP_iff.mp h
  rw [List.append_nil] at e
  rw [e]; exact h

theorem valText_of {t : Str} {v : Value} (h : valueBody t = .ok v []) : ValText t v := by
  obtain ⟨t', e, h, _⟩ := valueBody_inv h
  rw [List.append_nil] at e
  rw [e]; exact h

omit [FloatIO] in
theorem text_at {P : Str → Prop} {s t : Str} (h : P s) (e : s = t) : P t := e ▸ h

/-- An argument with an annotation and a comment inside. -/
theorem text_typed : EntryText ⟨some ['t'], none, .bool true⟩ "(t/*c*/)#true".toList :=
  text_at (P := EntryText _) (.arg (vt := "#true".toList) (.some (i := ['t']) (it := ['t']) (b := []) (f := [])
    (strText_of (by krfl)) .nil (.comment (a := ['c']) (.char (by decide) (by decide) .nil) .nil) .nil)
    (valText_of (by krfl))) (by krfl)

/-- A property with a quoted key and spaces around the equals sign. -/
theorem text_prop : EntryText ⟨none, some ['k'], .string ['v']⟩ "\"k\" = v".toList :=
  text_at (P := EntryText _) (.prop (kt := "\"k\"".toList) (vt := ['v']) (strText_of (by krfl))
    (.space (c := ' ') (by decide) .nil) (.space (c := ' ') (by decide) .nil) .none (valText_of (by krfl))) (by krfl)

/-- Hypotheses of `C38_entries`: three entries, with a duplicated key and a line
continuation. -/
example : EntriesText [⟨none, some ['k'], .string ['v']⟩, ⟨some ['t'], none, .bool true⟩, ⟨none, some ['k'], .string ['v']⟩]
    " \"k\" = v \\\n(t/*c*/)#true \"k\" = v".toList :=
  text_at (P := EntriesText _) (.cons (.space (.space (c := ' ') (by decide) .nil) (by simp)) text_prop
    (.cons (.space (.space (c := ' ') (by decide) (.cont (b := []) (m := ['\n']) .nil
      (Or.inl (Or.inr ⟨'\n', rfl, by decide, fun e => absurd e (by decide)⟩)) .nil)) (by simp)) text_typed
    (.cons (.space (.space (c := ' ') (by decide) .nil) (by simp)) text_prop .nil))) (by krfl)

/-- Hypotheses of `C38_printed`. -/
example : ∀ e ∈ [Entry.newProp (.ofStr ['k']) (.bool true), .new (.string ['"']), .newProp (.ofStr ['k']) .null],
    BuiltEntry e ∧ EntryWritable e := by
  intro e he
  simp only [List.mem_cons, List.not_mem_nil, or_false] at he
  rcases he with rfl | rfl | rfl
  · exact ⟨.newProp _ _, by rintro _ ⟨⟩; exact .of_head (by decide) (by decide), by rintro _ ⟨⟩, trivial⟩
  · exact ⟨.new _, by rintro _ ⟨⟩, by rintro _ ⟨⟩, .of_head (by decide) (by decide)⟩
  · exact ⟨.newProp _ _, by rintro _ ⟨⟩; exact .of_head (by decide) (by decide), by rintro _ ⟨⟩, trivial⟩

/-- `C32_entry` at work, with a newline after the slashdash. -/
example : Gives "n /-\n(t/*c*/)#true \"k\" = v".toList [.mk none ['n'] [⟨none, some ['k'], .string ['v']⟩] none] :=
  text_at (P := (Gives · _)) (C32_entry (nt := ['n']) (as := []) (bs := []) (strText_of (by krfl)) .nil
    (fun _ => .space (c := ' ') (by decide) .nil) (by simp)
    (.newline (m := ['\n']) (t := []) (Or.inr ⟨'\n', rfl, by decide, fun e => absurd e (by decide)⟩) .nil) text_typed
    (fun _ => .space (c := ' ') (by decide) .nil) (by simp) text_prop .nil) (by krfl)

/-- A node. -/
theorem text_b (r : Str) : Text (.node false (.mk none ['b'] [] none)) r ['b'] :=
  .leaf (tt := []) (nt := ['b']) (T := []) (w := []) .none (strText_of (by krfl)) .nil (.midSpace .nil)

/-- A list of one node. -/
theorem text_bs (r : Str) : Text (.nodes [.mk none ['b'] [] none]) r ['b'] :=
  .items (L := []) (T := ['b']) .leadNil (.last (text_b r))

/-- A node with an entry and a children block containing one node. -/
theorem text_node (r : Str) : Text (.node false (.mk none ['a'] [⟨some ['t'], none, .bool true⟩] (some [.mk none ['b'] [] none]))) r
    "a (t/*c*/)#true{b}".toList :=
  text_at (P := Text _ r) (.block (nt := ['a']) (w := []) (D := ['b']) (v := []) .none (strText_of (by krfl))
    (.cons (T := []) (.space (.space (c := ' ') (by decide) .nil) (by simp)) text_typed .nil) (fun _ => .midSpace .nil)
    (fun _ => text_bs _) (.tailSpace .nil)) (by krfl)

/-- `C32_node_partial` at work. -/
example : Gives "/- a (t/*c*/)#true{b}\nb".toList [.mk none ['b'] [] none] :=
  text_at (P := (Gives · _)) (C32_node_partial (.space (c := ' ') (by decide) .nil) (text_node _) (text_bs [])) (by krfl)

/-- `C32_node_after_partial` at work. -/
example : Gives "a (t/*c*/)#true{b}\n/-a (t/*c*/)#true{b}\nb".toList
    [.mk none ['a'] [⟨some ['t'], none, .bool true⟩] (some [.mk none ['b'] [] none]), .mk none ['b'] [] none] :=
  text_at (P := (Gives · _)) (C32_node_after_partial (b := []) (text_node _) .nil (text_node _) (text_bs [])) (by krfl)

/-- `C32_children` at work. -/
example : Gives "n /-{b} {a (t/*c*/)#true{b}}".toList [.mk none ['n'] []
    (some [.mk none ['a'] [⟨some ['t'], none, .bool true⟩] (some [.mk none ['b'] [] none])])] :=
  text_at (P := (Gives · _)) (C32_children (nt := ['n']) (b := []) (strText_of (by krfl)) .nil
    (fun _ => .space (c := ' ') (by decide) .nil) (by simp) .nil (fun _ => text_bs _) (fun _ => .space (c := ' ') (by decide) .nil)
    (fun _ => .items (L := []) .leadNil (.last (text_node _)))).2.1 (by krfl)

end

end Kdl
