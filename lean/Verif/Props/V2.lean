import Verif.Lemmas.V2Exact
import Verif.Spec.V2
import Verif.Lemmas.V2Text
import Verif.Lemmas.Parser.Reval
import Verif.Props.Format
import Verif.Props.InPlace
import Verif.Lemmas.KernelRfl
/-
C35: what has been converted to KDL v2 is printed as a text with the same data.
-/

namespace Kdl
open Spec

section
variable [FloatIO]

/-- A parsed entry whose value, with its text, is exchanged. -/
theorem entryParse_reval {s : Str} {e : Entry} (h : Entry.parse s = .ok e) :
    (∃ f, e.format = some f ∧ ValText f.valueRepr e.value) ∧
    ∀ t v, ValText t v → EntryInput (semEntry id (e.reval v t)) (e.reval v t).display := by
  have h := tryParse_ok.mp h
  unfold paddedNodeEntry at h
  rw [bind_here, bind_ok] at h
  obtain ⟨l, s1, h1, h⟩ := h
  rw [bind_ok] at h
  obtain ⟨e', s2, h2, h⟩ := h
  rw [bind_ok] at h
  obtain ⟨x, s3, h3, h⟩ := h
  rw [bind_here] at h
  obtain ⟨rfl, rfl⟩ := pure_ok.mp h
  obtain ⟨e1, us, h1⟩ := takeP_inv Strict.lineSpace.sfx.rep0 h1
  have hs1 := (lineSpace_back_iff.mp (rep0_stop h1)).1
  obtain ⟨l', e1', hl⟩ := lineRep_inv (rep_of_rep0 h1)
  have := List.append_cancel_right (e1.symm.trans e1')
  subst this
  subst e1
  obtain ⟨e2, hv⟩ := lineEnd_inv h3
  rw [List.append_nil] at e2
  subst e2
  obtain ⟨f, hf, htr, hv0, hlt, hre⟩ := nodeEntry_reval h2
  obtain ⟨w, t0, rfl, hne, _, ht0, _, f', hf', hw, hd⟩ := entry_exact h2
  obtain rfl : f' = f := by rw [hf] at hf'; exact (Option.some.inj hf').symm
  subst hw
  have et0 : t0 = e'.front ++ f'.valueRepr := by
    have h7 : f'.leading ++ t0 = f'.leading ++ (e'.front ++ f'.valueRepr) := by
      rw [← hd]
      simp [Entry.display, Entry.front, hf, htr]
    exact List.append_cancel_left h7
  refine ⟨⟨{ f' with leading := l ++ f'.leading, trailing := f'.trailing ++ s2 }, by simp [hf], hv0⟩, fun t v ht => ?_⟩
  have h5 := hre t v ht
  have hst := EntryEnd.starts h5
  have hdisp : ∀ sp, (Entry.reval { e' with format := e'.format.map (fun f => { f with leading := l ++ f.leading, trailing := f.trailing ++ s2 }), span := sp } v t).display =
      l ++ (f'.leading ++ ((e'.front ++ t) ++ s2)) := by
    intro sp
    simp [Entry.reval, Entry.display, Entry.front, Entry.displayKey, Entry.displayTy, hf, htr]
  rw [hdisp]
  refine ⟨l, e'.front ++ t, s2, h5, hv, ?_⟩
  rw [← et0] at hlt
  rcases hlt with hw | ⟨a, S, w', ew, ha, hS, hw, hwne⟩
  · have : f'.leading = [] := nodeSpace0_none hs1 (hw.swapH hne (by
      intro q e
      obtain ⟨c, y, rfl, _⟩ := EntryEnd.starts ht0
      exact ⟨y, by rw [(List.cons.inj e).1]⟩)) ((EntryEnd.starts ht0).append _).solid.nodeSpace
    rw [this] at hl ⊢
    exact Or.inl ⟨rfl, hl.swapH (by simp [hne]) (starts_nl hst _)⟩
  · rw [ew] at hs1 hl ⊢
    obtain ⟨x, rfl⟩ := SdEnd.slash hS
    have ha' : NSpace ('/' :: '-' :: x ++ (w' ++ (t0 ++ s2))) a := ha.swapH (by simp) (by rintro q ⟨⟩)
    have : a = [] := nodeSpace0_none (by simpa using hs1) ha' (slash_facts (by decide) _).1
    subst this
    exact Or.inr ⟨_, w', by simp, LSpace.cut (r := w' ++ (t0 ++ s2)) (by simpa using hl) (by simp), hS,
      hw.swapH hne (starts_nl hst _), hwne⟩

/-- `ensure_v2` gives the entry another text for its value. -/
theorem ensureV2_reval {e : Entry} {f : EntryFmt} (hf : e.format = some f) (h0 : ValText f.valueRepr e.value) (hk : V2Entry e) :
    ∃ t, e.ensureV2 = e.reval e.value t ∧ ValText t e.value := by
  unfold Entry.ensureV2
  rw [hf]
  refine ⟨_, by simp [Entry.reval, hf]; rfl, ?_⟩
  cases hv : e.value with
  | string w =>
    rw [hv] at h0
    generalize hr : f.valueRepr = r at h0
    have hk' := hk f w hf hv
    rw [hr] at hk'
    cases h0 with
    | str h0 => exact .str (v2_text h0 hk')
    | num h0 => cases h0
    | keyword h0 => simp [keywords] at h0
  | bool b => exact .keyword (by cases b <;> simp [Value.display, keywords])
  | null => exact .keyword (by simp [Value.display, keywords])
  | integer i => rw [hv] at h0; exact h0
  | float x => rw [hv] at h0; exact h0

/-- **C35**, entries, partial: a parsed entry whose text survives is printed, after
`ensure_v2`, as a text that is read again as an entry with the same data. Missing: the
texts that do not survive, see the violations below. -/
theorem C35_entry_partial {s : Str} {e : Entry} (h : Entry.parse s = .ok e) (hk : V2Entry e) :
    ∃ e', Entry.parse e.ensureV2.display = .ok e' ∧ semEntry id e' = semEntry id e := by
  obtain ⟨⟨f, hf, h0⟩, hre⟩ := entryParse_reval h
  obtain ⟨t, e1, ht⟩ := ensureV2_reval hf h0 hk
  have := hre t e.value ht
  rw [← e1] at this
  obtain ⟨e', h1, h2⟩ := C50_entry.mpr this
  exact ⟨e', h1, by rw [h2, e1]; rfl⟩

/-- **C35**, entries, decided: after `ensure_v2`, the text of a parsed entry is a text of its
value exactly if it survives in the sense of `V2Entry`. -/
theorem C35_entry_exact {s : Str} {e : Entry} (h : Entry.parse s = .ok e) :
    (∃ f', e.ensureV2.format = some f' ∧ ValText f'.valueRepr e.value) ↔ V2Entry e := by
  obtain ⟨⟨f, hf, h0⟩, _⟩ := entryParse_reval h
  constructor
  · rintro ⟨f', h1, h2⟩ g w hg hv
    rw [hf] at hg
    cases hg
    rw [Entry.ensureV2, hf] at h1
    cases h1
    simp only [hv] at h2
    rw [hv] at h0
    have h0 : StrText f.valueRepr w := by
      generalize f.valueRepr = r at h0
      cases h0 with
      | str h0 => exact h0
      | num h0 => cases h0
      | keyword h0 => simp [keywords] at h0
    generalize hr : v2StringRepr w f.valueRepr = r at h2
    cases h2 with
    | str h2 => exact v2_text_keeps h0 (hr ▸ h2)
    | num h2 => cases h2
    | keyword h2 => simp [keywords] at h2
  · intro hk
    obtain ⟨t, e1, ht⟩ := ensureV2_reval hf h0 hk
    exact ⟨_, by rw [e1, Entry.reval, hf]; rfl, ht⟩

/-- Entries that `ensure_v2` leaves readable. -/
def V2Fine (e : Entry) : Prop := ReadableEntry e ∧ Revaluable e

theorem V2Fine.ensure {e : Entry} (h : V2Fine e) (hk : V2Entry e) : ReadableEntry e.ensureV2 := by
  obtain ⟨h1, h2⟩ := h
  obtain ⟨f, hf, _, h0, _⟩ := id h2
  obtain ⟨t, e1, ht⟩ := ensureV2_reval hf h0 hk
  rw [e1]
  exact h2.readable h1 ht

mutual
theorem v2Node_edited : ∀ {n : Node}, V2Node n → (∀ e, Part.entry e ∈ nodeParts n → V2Fine e) → Edited n n.ensureV2
  | .mk ty name es ch f sp, h, hp => by
    cases h with
    | mk ht hn he hc =>
      refine .mk (Or.inr ?_) (Or.inr ?_) (Or.inr ?_) ?_
      · intro i hi
        cases ty with
        | none => simp at hi
        | some t =>
          obtain rfl : Ident.ofStr t.value = i := by simpa using hi
          exact StrText.ident rfl (ht t rfl)
      · exact StrText.ident rfl hn
      · intro e' h'
        obtain ⟨e, h1, rfl⟩ := List.mem_map.mp h'
        refine (hp e ?_).ensure (he e h1)
        simp only [nodeParts, List.mem_cons, List.mem_append, List.mem_flatMap]
        exact Or.inr (Or.inr (Or.inl (Or.inr ⟨e, h1, by simp [entryParts]⟩)))
      · cases ch with
        | none => exact .none
        | some d =>
          exact .some (v2Doc_edited (d := d) (hc d rfl) fun e h1 => hp e (by simp [nodeParts, childrenParts, h1]))
theorem v2Doc_edited : ∀ {d : Document}, V2Doc d → (∀ e, Part.entry e ∈ docParts d → V2Fine e) → EditedDoc d d.ensureV2
  | .mk ns f sp, h, hp => by
    cases h with
    | mk h1 h2 h3 =>
      refine .mk (v2Nodes_edited ns h1 h2 ?_ fun e he => hp e (by simp [docParts, he]))
      intro n hn
      rcases h3 n hn with h | h | h | h
      · exact Or.inl h
      · exact Or.inr (Or.inl h)
      · exact Or.inr (Or.inr (Or.inl h))
      · refine Or.inr (Or.inr (Or.inr ?_))
        intro q
        cases f with
        | none => simp
        | some g => exact h g q rfl
theorem v2Nodes_edited {tr : Str} : ∀ (ns : List Node), (∀ n ∈ ns, V2Node n) → PartedAll ns →
    (∀ n ∈ ns.getLast?, n.entries = [] ∨ n.children.isSome = true ∨ terminatorOf n ≠ [] ∨ ∀ q, tr ≠ '/' :: '-' :: q) →
    (∀ e, Part.entry e ∈ nodesParts ns → V2Fine e) → EditedNodes tr ns (ensureNodes ns)
  | [], _, _, _, _ => .nil
  | [n], h, _, hl, hp => by
    refine .last (v2Node_edited (h n (by simp)) fun e he => hp e (by simp [nodesParts, he])) ?_
    rcases hl n (by simp) with h1 | h1
    · refine Or.inl ?_
      obtain ⟨ty, name, es, ch, f, sp⟩ := n
      have : es = [] := h1
      subst this
      rfl
    · exact Or.inr h1
  | n :: n2 :: ns, h, ht, hl, hp =>
    .cons (v2Node_edited (h n (by simp)) fun e he => hp e (by simp [nodesParts, he])) ht.1
      (v2Nodes_edited (n2 :: ns) (fun m hm => h m (by simp [hm])) ht.2
        (fun m hm => hl m (by simpa [List.getLast?_cons_cons] using hm)) fun e he => hp e (by
          rw [nodesParts]; exact List.mem_append_right _ he))
end

/-- The entries of a parsed document. -/
theorem documentParse_fine {s : Str} {d : Document} (h : Document.parse s = .ok d) : ∀ e, Part.entry e ∈ docParts d → V2Fine e := by
  intro e he
  have h1 : Revaluable e := by
    have := documentP_parts (Q := fun p => ∀ e, p = .entry e → Revaluable e)
      ⟨(by intro _ _ _ _ _ _ h; cases h), (by intro _ _ _ _ h e h'; cases h'; exact nodeEntry_reval h),
        (by intro _ _ _ _ _ h; cases h), (by intro _ _ _ _ _ h; cases h)⟩ h _ he
    exact this e rfl
  refine ⟨?_, h1⟩
  obtain ⟨D, d', hD, ⟨rfl, rfl⟩ | ⟨rfl, rfl⟩⟩ := parse_exact h
  · exact hD.readable e he
  · refine hD.readable e ?_
    obtain ⟨ns, f, sp⟩ := d'
    exact he

/-- **C35**, documents, partial: a parsed document that survives is printed, after
`ensure_v2`, as a text that is read again as a document with the same data. Missing: the
documents that do not survive, see the violations below. -/
theorem C35_document_partial {s : Str} {d : Document} (h : Document.parse s = .ok d) (hk : V2Doc d) :
    Gives d.ensureV2.display (semDoc id d) := by
  have := C52_edit_partial h (v2Doc_edited hk (documentParse_fine h))
  rwa [semDoc_ensureV2] at this

/-! ### Running it again -/

theorem ensureV2_again {e : Entry} (h : ∀ f, e.format = some f → ValText f.valueRepr e.value) (hk : V2Entry e) :
    e.ensureV2.ensureV2 = e.ensureV2 := by
  cases hf : e.format with
  | none => simp [Entry.ensureV2, hf]
  | some f =>
    have h0 := h f hf
    cases hv : e.value with
    | string w =>
      rw [hv] at h0
      have hk' := hk f w hf hv
      generalize hr : f.valueRepr = r at h0 hk'
      cases h0 with
      | str h0 => simp [Entry.ensureV2, hf, hv, hr, v2_again h0 hk']
      | num h0 => cases h0
      | keyword h0 => simp [keywords] at h0
    | bool b => simp [Entry.ensureV2, hf, hv]
    | null => simp [Entry.ensureV2, hf, hv]
    | integer i => simp [Entry.ensureV2, hf, hv]
    | float x => simp [Entry.ensureV2, hf, hv]

mutual
theorem v2Node_again : ∀ {n : Node}, V2Node n → (∀ e, Part.entry e ∈ nodeParts n → V2Fine e) → n.ensureV2.ensureV2 = n.ensureV2
  | .mk ty name es ch f sp, h, hp => by
    cases h with
    | mk ht hn he hc =>
      have h1 : (es.map Entry.ensureV2).map Entry.ensureV2 = es.map Entry.ensureV2 := by
        rw [List.map_map]
        refine List.map_congr_left fun e hm => ?_
        refine ensureV2_again ?_ (he e hm)
        obtain ⟨_, f, hf, _, h0, _⟩ := hp e (by
          simp only [nodeParts, List.mem_cons, List.mem_append, List.mem_flatMap]
          exact Or.inr (Or.inr (Or.inl (Or.inr ⟨e, hm, by simp [entryParts]⟩))))
        rintro f' hf'
        rw [hf] at hf'
        cases hf'
        exact h0
      have h2 : ensureOptDoc (ensureOptDoc ch) = ensureOptDoc ch := by
        cases ch with
        | none => rfl
        | some d =>
          simp only [ensureOptDoc]
          rw [v2Doc_again (d := d) (hc d rfl) fun e h1 => hp e (by simp [nodeParts, childrenParts, h1])]
      simp only [Node.ensureV2, h1, h2]
      cases ty <;> rfl
theorem v2Doc_again : ∀ {d : Document}, V2Doc d → (∀ e, Part.entry e ∈ docParts d → V2Fine e) → d.ensureV2.ensureV2 = d.ensureV2
  | .mk ns f sp, h, hp => by
    cases h with
    | mk h1 h2 h3 =>
      simp only [Document.ensureV2]
      rw [v2Nodes_again ns h1 fun e he => hp e (by simp [docParts, he])]
theorem v2Nodes_again : ∀ (ns : List Node), (∀ n ∈ ns, V2Node n) → (∀ e, Part.entry e ∈ nodesParts ns → V2Fine e) →
    ensureNodes (ensureNodes ns) = ensureNodes ns
  | [], _, _ => rfl
  | n :: ns, h, hp => by
    simp only [ensureNodes]
    rw [v2Node_again (h n (by simp)) fun e he => hp e (by simp [nodesParts, he]),
      v2Nodes_again ns (fun m hm => h m (by simp [hm])) fun e he => hp e (by simp [nodesParts, he])]
end

/-- **C35**, partial: on a parsed document that survives, a second `ensure_v2` changes
nothing at all. -/
theorem C35_again_partial {s : Str} {d : Document} (h : Document.parse s = .ok d) (hk : V2Doc d) :
    d.ensureV2.ensureV2 = d.ensureV2 := v2Doc_again hk (documentParse_fine h)

/-! ### Concrete cases -/

/-- Enough for `V2Keeps`, computed. -/
def v2KeepsB (t w : Str) : Bool :=
  !w.isEmpty && !(w.head? == some '+') && !(w.head? == some '-') && !t.any isNewlineChar && !containsStr t ['\\', '/']

/-- Enough for `Writable`, computed. -/
def writableB (w : Str) : Bool := decide (∀ c ∈ w, CleanChar c) && !(w.head? == some '+') && !(w.head? == some '-')

/-- Enough for `V2Entry`, computed. -/
def v2EntryB (e : Entry) : Bool :=
  match e.format, e.value with
  | some f, .string w => v2KeepsB f.valueRepr w
  | _, _ => true

mutual
/-- Enough for `V2Node`, computed. -/
def v2NodeB : Node → Bool
  | .mk ty name es ch _ _ => (ty.all fun i => writableB i.value) && writableB name.value && es.all v2EntryB && v2OptB ch
/-- `v2NodeB` for a children block. -/
def v2OptB : Option Document → Bool
  | none => true
  | some d => v2DocB d
/-- Enough for `V2Doc`, computed. -/
def v2DocB : Document → Bool
  | .mk ns f _ => v2NodesB ns && (match f with | some g => !(g.trailing.head? == some '/') | none => true)
/-- `v2NodeB` for a list of nodes. -/
def v2NodesB : List Node → Bool
  | [] => true
  | n :: ns => v2NodeB n && (ns.isEmpty || !(terminatorOf n).isEmpty) && v2NodesB ns
end

omit [FloatIO] in
theorem signedPoint_head {w : Str} (h1 : (w.head? == some '+') = false) (h2 : (w.head? == some '-') = false) : ¬ SignedPoint w := by
  rintro ⟨⟨g, d, t, rfl | rfl, _, rfl⟩, _⟩
  · simp at h1
  · simp at h2

omit [FloatIO] in
theorem writableB_ok {w : Str} (h : writableB w = true) : Writable w := by
  simp only [writableB, Bool.and_eq_true, decide_eq_true_eq, Bool.not_eq_true'] at h
  exact ⟨h.1.1, signedPoint_head h.1.2 h.2⟩

omit [FloatIO] in
theorem v2EntryB_ok {e : Entry} (h : v2EntryB e = true) : V2Entry e := by
  intro f w hf hv
  unfold v2EntryB at h
  rw [hf, hv] at h
  simp only [v2KeepsB, Bool.and_eq_true, Bool.not_eq_true'] at h
  obtain ⟨⟨⟨⟨h1, h2⟩, h3⟩, h4⟩, h5⟩ := h
  refine ⟨by simpa using h1, signedPoint_head h2 h3, fun q e _ => Or.inr ⟨?_, ?_⟩⟩
  · rintro ⟨c, hc, hn⟩
    have := any_newline.mpr ⟨c, (by rw [e]; simp [hc] : c ∈ f.valueRepr), hn⟩
    rw [h4] at this
    cases this
  · rintro _ ⟨a, b, rfl⟩
    have := containsStr_append ('"' :: a) ['\\', '/'] (b ++ ['"'])
    rw [show ('"' :: a) ++ (['\\', '/'] ++ (b ++ ['"'])) = f.valueRepr by rw [e]; simp] at this
    rw [h5] at this
    cases this

omit [FloatIO] in
mutual
theorem v2NodeB_ok : ∀ {n : Node}, v2NodeB n = true → V2Node n
  | .mk ty name es ch f sp, h => by
    simp only [v2NodeB, Bool.and_eq_true] at h
    obtain ⟨⟨⟨h1, h2⟩, h3⟩, h4⟩ := h
    refine .mk ?_ (writableB_ok h2) (fun e he => v2EntryB_ok (List.all_eq_true.mp h3 e he)) ?_
    · rintro i rfl
      exact writableB_ok h1
    · rintro d rfl
      exact v2DocB_ok (d := d) h4
theorem v2DocB_ok : ∀ {d : Document}, v2DocB d = true → V2Doc d
  | .mk ns f sp, h => by
    simp only [v2DocB, Bool.and_eq_true] at h
    obtain ⟨h1, h2⟩ := h
    obtain ⟨h3, h4⟩ := v2NodesB_ok (ns := ns) h1
    refine .mk h3 h4 fun n _ => Or.inr (Or.inr (Or.inr ?_))
    rintro g q rfl e
    simp only [e] at h2
    simp at h2
theorem v2NodesB_ok : ∀ {ns : List Node}, v2NodesB ns = true →
    (∀ n ∈ ns, V2Node n) ∧ PartedAll ns
  | [], _ => by simp [PartedAll]
  | n :: ns, h => by
    simp only [v2NodesB, Bool.and_eq_true, Bool.or_eq_true] at h
    obtain ⟨⟨h1, h2⟩, h3⟩ := h
    have h4 := v2NodeB_ok (n := n) h1
    obtain ⟨h5, h6⟩ := v2NodesB_ok (ns := ns) h3
    refine ⟨fun m hm => ?_, ?_⟩
    · rcases List.mem_cons.mp hm with rfl | hm
      · exact h4
      · exact h5 m hm
    · cases ns with
      | nil => trivial
      | cons n2 ns => exact ⟨Or.inl (by simpa using h2), h6⟩
end

/-- A document with quoted names, comments, a raw string and a children block. -/
def v2Sample : Str := "\"a\" \"b\" 1 /*c*/ k=#\"d e\"# // f\n(\"t\")g {\n  \"h i\" \"j\\tk\"\n}\n".toList

/-- The hypotheses of C35 can be met. -/
theorem C35_example : ∃ d, Document.parse v2Sample = .ok d ∧ V2Doc d ∧
    d.ensureV2.display = "a b 1 /*c*/ k=#\"d e\"# // f\n(t)g {\n  \"h i\" \"j\\tk\"\n}\n".toList := by
  obtain ⟨d, h1, h2⟩ := ParseResult.holds_ok (r := Document.parse v2Sample)
    (f := fun d : Document => v2DocB d && decide (d.ensureV2.display =
      "a b 1 /*c*/ k=#\"d e\"# // f\n(t)g {\n  \"h i\" \"j\\tk\"\n}\n".toList)) (by krfl)
  rw [Bool.and_eq_true] at h2
  exact ⟨d, h1, v2DocB_ok h2.1, of_decide_eq_true h2.2⟩

/-- A string over two lines that survives: `"a \⏎ b"` becomes a multi-line string. -/
theorem C35_example_lines : ∃ e, Entry.parse "\"a \\\n b\"".toList = .ok e ∧ V2Entry e ∧
    e.ensureV2.display = "\"\"\"\na \\\n b\n\"\"\"".toList ∧ e.value = .string "a b".toList := by
  obtain ⟨e, h1, h2⟩ := ParseResult.holds_ok (r := Entry.parse "\"a \\\n b\"".toList)
    (f := fun e : Entry => decide (e.format.map (fun f => f.valueRepr) = some "\"a \\\n b\"".toList) && decide (e.ensureV2.display =
      "\"\"\"\na \\\n b\n\"\"\"".toList) && decide (e.value = .string "a b".toList)) (by krfl)
  simp only [Bool.and_eq_true, decide_eq_true_eq] at h2
  refine ⟨e, h1, ?_, h2.1.2, h2.2⟩
  intro f w hf hv
  rw [hf] at h2
  rw [hv] at h2
  obtain ⟨⟨h3, _⟩, h4⟩ := h2
  cases h4
  have h3 : f.valueRepr = _ := Option.some.inj h3
  rw [h3]
  refine ⟨by decide, signedPoint_head rfl rfl, fun q e _ => Or.inr ⟨fun _ => ?_, fun h => ?_⟩⟩
  · have eq : q = "a \\\n b".toList := List.append_cancel_right (List.cons.inj e).2.symm
    subst eq
    have hb : MLine ['b'] ['b'] := .plain (by decide) (by decide) (by decide) (by decide) .nil
    have hn : NoBlank ['b'] := by
      rintro c q h
      cases h
      decide
    show MLine ['a', ' ', '\\', '\n', ' ', 'b'] ['a', ' ', 'b']
    exact .plain (by decide) (by decide) (by decide) (by decide) (.plain (by decide) (by decide) (by decide) (by decide)
      (.space (w := ['\n', ' ']) (by decide) (by decide) (by decide) hn hb))
  · have eq : q = "a \\\n b".toList := List.append_cancel_right (List.cons.inj e).2.symm
    subst eq
    exact absurd (by decide) (h '\n' (by decide))

/-! ### Where the code violates C35 -/

/-- C35 is violated: the empty string is printed as nothing. -/
theorem C35_violated_empty : ∃ d, Document.parse "a \"\"".toList = .ok d ∧ d.ensureV2.display = "a ".toList := by
  obtain ⟨d, h1, h2⟩ := ParseResult.holds_ok (r := Document.parse "a \"\"".toList)
    (f := fun d : Document => decide (d.ensureV2.display = "a ".toList)) (by krfl)
  exact ⟨d, h1, of_decide_eq_true h2⟩

/-- C35 is violated: a string that looks like a number loses its quotation marks. -/
theorem C35_violated_number : ∃ d, Document.parse "a \"-.5\"".toList = .ok d ∧ d.ensureV2.display = "a -.5".toList ∧
    Document.parse "a -.5".toList = .err := by
  obtain ⟨d, h1, h2⟩ := ParseResult.holds_ok (r := Document.parse "a \"-.5\"".toList)
    (f := fun d : Document => decide (d.ensureV2.display = "a -.5".toList)) (by krfl)
  exact ⟨d, h1, of_decide_eq_true h2, by krfl⟩

/-- C35 is violated: a backslash in front of a slash loses its own escape. -/
theorem C35_violated_slash : ∃ d, Document.parse "a \"b \\\\/\"".toList = .ok d ∧ d.ensureV2.display = "a \"b \\/\"".toList ∧
    Document.parse "a \"b \\/\"".toList = .err := by
  obtain ⟨d, h1, h2⟩ := ParseResult.holds_ok (r := Document.parse "a \"b \\\\/\"".toList)
    (f := fun d : Document => decide (d.ensureV2.display = "a \"b \\/\"".toList)) (by krfl)
  exact ⟨d, h1, of_decide_eq_true h2, by krfl⟩

/-- C35 is violated: a string that ends in an escaped line break becomes a multi-line
string without a last line. -/
theorem C35_violated_lines : ∃ d, Document.parse "a \"b c\\\n\"".toList = .ok d ∧
    d.ensureV2.display = "a \"\"\"\nb c\\\n\n\"\"\"".toList ∧
    Document.parse "a \"\"\"\nb c\\\n\n\"\"\"".toList = .err := by
  obtain ⟨d, h1, h2⟩ := ParseResult.holds_ok (r := Document.parse "a \"b c\\\n\"".toList)
    (f := fun d : Document => decide (d.ensureV2.display = "a \"\"\"\nb c\\\n\n\"\"\"".toList)) (by krfl)
  exact ⟨d, h1, of_decide_eq_true h2, by krfl⟩

end

end Kdl
