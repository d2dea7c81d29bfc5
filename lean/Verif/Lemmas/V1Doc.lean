import Verif.Lemmas.V1Text
import Verif.Lemmas.Parser.Reval
import Verif.Lemmas.Parser.Documented
/-
Converted v1 documents and the texts they are printed as.
-/

namespace Kdl
open Spec

/-! ### The data -/

theorem i128OfI64_val (i : V1.I64) : (i128OfI64 i).val = i.val := by rw [i128OfI64]

theorem Value.ofV1_data (v : V1.Value) : V1Value v (Value.ofV1 v) := by
  cases v with
  | rawString s => exact .raw s
  | string s => exact .string s
  | base2 i => exact .base2 i _ (i128OfI64_val i)
  | base8 i => exact .base8 i _ (i128OfI64_val i)
  | base10 i => exact .base10 i _ (i128OfI64_val i)
  | base10Float x => exact .float x
  | base16 i => exact .base16 i _ (i128OfI64_val i)
  | bool b => exact .bool b
  | null => exact .null

theorem V1Value.unique {v : V1.Value} {a b : Value} (ha : V1Value v a) (hb : V1Value v b) : a = b := by
  cases ha <;> cases hb <;> first | rfl | (rename_i h1 _ h2; exact congrArg Value.integer (Subtype.ext (h1.trans h2.symm)))

theorem Entry.ofV1_data (e : V1.Entry) : V1DataEntry e (semEntry id (Entry.ofV1 e)) := by
  refine ⟨?_, ?_, Value.ofV1_data e.value⟩
  · simp [semEntry, Entry.ofV1, Ident.ofV1, Function.comp_def]
  · simp [semEntry, Entry.ofV1, Ident.ofV1, Function.comp_def]

theorem ofV1_dataEntries : ∀ es : List V1.Entry, V1DataEntries es ((es.map Entry.ofV1).map (semEntry id))
  | [] => .nil
  | e :: es => .cons (Entry.ofV1_data e) (ofV1_dataEntries es)

theorem V1DataEntries.unique : ∀ {es : List V1.Entry} {a b : List (SEntry Value)}, V1DataEntries es a → V1DataEntries es b → a = b
  | _, _, _, .nil, .nil => rfl
  | _, _, _, .cons (d := d) h ht, .cons (d := d') h' ht' => by
    rw [V1DataEntries.unique ht ht']
    obtain ⟨ty, nm, v⟩ := d
    obtain ⟨ty', nm', v'⟩ := d'
    obtain ⟨h1, h2, h3⟩ := h
    obtain ⟨h1', h2', h3'⟩ := h'
    have := V1Value.unique h3 h3'
    simp only at h1 h2 h1' h2' this
    subst h1 h2 h1' h2' this
    rfl

mutual
theorem Node.ofV1_data : ∀ n : V1.Node, V1DataNode n (semNode id (Node.ofV1 n))
  | .mk ty name es none l b t sp => by
    have := V1DataNode.leaf (ty := ty) (name := name) (l := l) (b := b) (t := t) (sp := sp) (ofV1_dataEntries es)
    simpa [Node.ofV1, optDocOfV1, semNode, semOptDoc, Ident.ofV1, Function.comp_def] using this
  | .mk ty name es (some d) l b t sp => by
    have := V1DataNode.block (ty := ty) (name := name) (l := l) (b := b) (t := t) (sp := sp) (ofV1_dataEntries es) (Document.ofV1_data d)
    simpa [Node.ofV1, optDocOfV1, semNode, semOptDoc, Ident.ofV1, Function.comp_def] using this
theorem Document.ofV1_data : ∀ d : V1.Document, V1Data d (semDoc id (Document.ofV1 d))
  | .mk ns l t sp => .mk (nodesOfV1_data ns)
theorem nodesOfV1_data : ∀ ns : List V1.Node, V1DataNodes ns (semNodes id (nodesOfV1 ns))
  | [] => .nil
  | n :: ns => .cons (Node.ofV1_data n) (nodesOfV1_data ns)
end

mutual
theorem V1DataNode.unique : ∀ {n : V1.Node} {a b : SNode Value}, V1DataNode n a → V1DataNode n b → a = b
  | _, _, _, .leaf h, .leaf h' => by rw [V1DataEntries.unique h h']
  | _, _, _, .block h hc, .block h' hc' => by rw [V1DataEntries.unique h h', V1Data.unique hc hc']
theorem V1Data.unique : ∀ {d : V1.Document} {a b : List (SNode Value)}, V1Data d a → V1Data d b → a = b
  | _, _, _, .mk h, .mk h' => V1DataNodes.unique h h'
theorem V1DataNodes.unique : ∀ {ns : List V1.Node} {a b : List (SNode Value)}, V1DataNodes ns a → V1DataNodes ns b → a = b
  | _, _, _, .nil, .nil => rfl
  | _, _, _, .cons h ht, .cons h' ht' => by rw [V1DataNode.unique h h', V1DataNodes.unique ht ht']
end

/-! ### What is left of the end of a node -/

theorem crlf_plain {w x : Str} (h : ∀ c ∈ w, c ≠ '\r') : crlfToLf (w ++ x) = w ++ crlfToLf x := by
  induction w with
  | nil => rfl
  | cons c w ih =>
    have ih := ih fun c hc => h c (by simp [hc])
    rw [List.cons_append]
    cases hx : w ++ x with
    | nil =>
      obtain ⟨rfl, rfl⟩ := List.append_eq_nil_iff.mp hx
      rfl
    | cons d y => rw [crlfToLf, if_neg (fun e => h c (by simp) e.1), ← hx, ih]; rfl

theorem dropLf_plain {w x : Str} (h : ∀ c ∈ w, c ≠ '\n') : dropFirstLf (w ++ x) = w ++ dropFirstLf x := by
  induction w with
  | nil => rfl
  | cons c w ih => rw [List.cons_append, dropFirstLf, if_neg (h c (by simp)), ih fun c hc => h c (by simp [hc])]; rfl

theorem v1Trailing_line {w nl : Str} (h : ∀ c ∈ w, c ≠ ';' ∧ ¬ Newline c) (hn : NewlineSeq nl [] ∨ nl = []) :
    v1Trailing (some (w ++ nl)) = w ∧ v1Terminator (some (w ++ nl)) = ['\n'] := by
  have hnl : ∀ c ∈ nl, Newline c := by
    intro c hc
    rcases hn with (rfl | ⟨c', rfl, hn, _⟩) | rfl
    · simp only [List.mem_cons, List.not_mem_nil, or_false] at hc
      rcases hc with rfl | rfl <;> decide
    · rcases List.mem_singleton.mp hc with rfl
      exact hn
    · simp at hc
  have hsemi : (w ++ nl).contains ';' = false := by
    rw [Bool.eq_false_iff]
    intro hc
    rw [List.contains_eq_mem, decide_eq_true_eq] at hc
    rcases List.mem_append.mp hc with hc | hc
    · exact (h _ hc).1 rfl
    · have := hnl _ hc
      revert this
      decide
  have hterm : v1Terminator (some (w ++ nl)) = ['\n'] := by simp only [v1Terminator, hsemi, Bool.false_eq_true, if_false]
  refine ⟨?_, hterm⟩
  have hcr : ∀ c ∈ w, c ≠ '\r' := by
    rintro c hc rfl
    exact (h _ hc).2 (by decide)
  have hlf : ∀ c ∈ w, c ≠ '\n' := by
    rintro c hc rfl
    exact (h _ hc).2 (by decide)
  have hmap : w.map (fun c => if isNewlineChar c then '\n' else c) = w := by
    conv => rhs; rw [← List.map_id w]
    refine List.map_congr_left fun c hc => ?_
    have : isNewlineChar c = false := by
      rw [Bool.eq_false_iff]
      exact fun hn => (h c hc).2 (isNewlineChar_iff.mp hn)
    simp [this]
  have hd : dropFirstLf ((crlfToLf nl).map fun c => if isNewlineChar c then '\n' else c) = [] := by
    rcases hn with (rfl | ⟨c, rfl, hn, _⟩) | rfl
    · decide
    · have : isNewlineChar c = true := isNewlineChar_iff.mpr hn
      simp [crlfToLf, this, dropFirstLf]
    · rfl
  simp only [v1Trailing, hsemi, Bool.false_eq_true, if_false, hterm]
  rw [if_neg (by decide), crlf_plain hcr, List.map_append, hmap, dropLf_plain hlf, hd, List.append_nil]

theorem V1End.left {t u : Str} (h : V1End t u) :
    v1Trailing (some t) = u ∧ (v1Terminator (some t) = [';'] ∨ v1Terminator (some t) = ['\n']) := by
  cases h with
  | line hw hn => exact ⟨(v1Trailing_line hw.2 (Or.inl hn)).1, Or.inr (v1Trailing_line hw.2 (Or.inl hn)).2⟩
  | @semi w x hw hx =>
    have hc : (w ++ ';' :: x).contains ';' = true := by simp
    refine ⟨?_, Or.inl (by simp [v1Terminator])⟩
    simp only [v1Trailing, hc, if_true]
    have h1 : w.filter (fun c => decide (c ≠ ';')) = w := List.filter_eq_self.mpr fun c hc => by simpa using hw c hc
    have h2 : x.filter (fun c => decide (c ≠ ';')) = x := List.filter_eq_self.mpr fun c hc => by simpa using hx c hc
    rw [List.filter_append, h1, List.filter_cons_of_neg (by simp), h2]
  | @comment w b nl hw hb hn =>
    have hall : ∀ c ∈ w ++ '/' :: '/' :: b, c ≠ ';' ∧ ¬ Newline c := by
      intro c hc
      simp only [List.mem_append, List.mem_cons] at hc
      rcases hc with hc | rfl | rfl | hc
      · exact hw.2 c hc
      · decide
      · decide
      · exact hb c hc
    have := v1Trailing_line hall hn
    rw [show (w ++ '/' :: '/' :: b) ++ nl = w ++ '/' :: '/' :: (b ++ nl) by simp] at this
    exact ⟨this.1, Or.inr this.2⟩
  | eof hw =>
    have := v1Trailing_line hw.2 (Or.inr rfl)
    rw [List.append_nil] at this
    exact ⟨this.1, Or.inr this.2⟩

/-! ### The texts -/

variable [FloatIO]

theorem Spec.StrText.starts {t v : Str} (h : StrText t v) : Starts t :=
  EntryEnd.starts (k := false) (d := ⟨none, none, .string v⟩) (t := [] ++ t) (.arg .none (.str h))

theorem V1Name.text {i : V1.Ident} (h : V1Name i) : StrText (Ident.ofV1 i).display (Ident.ofV1 i).value := by
  obtain ⟨t, hr, ht⟩ := h
  simp only [Ident.display, Ident.ofV1, hr]
  exact ht

theorem entry_v1 {e : V1.Entry} (h : V1Entry e) : ∃ w t, (Entry.ofV1 e).ensureV2.display = w ++ t ∧
    (Entry.ofV1 e).ensureV2.format.isNone = false ∧ EntryLead t w ∧ EntryText (semEntry id (Entry.ofV1 e)) t := by
  obtain ⟨⟨w, hw, hs, hne⟩, htr, hty, hnm, hv⟩ := h
  -- the value
  have hval : ∃ vt, ValText vt (Value.ofV1 e.value) ∧ (match Value.ofV1 e.value with
        | .string val => v2StringRepr val (e.valueRepr.getD [])
        | .bool _ => (Value.ofV1 e.value).display
        | .null => (Value.ofV1 e.value).display
        | .integer _ => e.valueRepr.getD []
        | .float _ => e.valueRepr.getD []) = vt := by
    rcases hv with ⟨t, s, hr, hv, hg⟩ | ⟨t, v, hr, hv, hg⟩ | ⟨b, hb⟩ | hb
    · rw [V1Value.unique (Value.ofV1_data e.value) hv, hr]
      exact ⟨_, .str (v1_text hg), rfl⟩
    · rw [V1Value.unique (Value.ofV1_data e.value) hv, hr]
      refine ⟨t, .num hg, ?_⟩
      cases hg <;> rfl
    · rw [hb]
      exact ⟨_, .keyword (by cases b <;> simp [Value.ofV1, Value.display, keywords]), rfl⟩
    · rw [hb]
      exact ⟨_, .keyword (by simp [Value.ofV1, Value.display, keywords]), rfl⟩
  obtain ⟨vt, hvt, evt⟩ := hval
  -- the annotation
  have htt : ∃ tt, TyText vt (e.ty.map V1.Ident.value) tt ∧ (match e.ty with | none => [] | some i => '(' :: ((Ident.ofV1 i).display ++ [')'])) = tt := by
    cases ht : e.ty with
    | none => exact ⟨[], .none, rfl⟩
    | some i =>
      refine ⟨_, ?_, rfl⟩
      have := TyText.some (nx := vt) (b := []) (a := []) (f := []) (V1Name.text (hty i (by rw [ht]; rfl))) .nil .nil .nil
      simpa [Ident.ofV1] using this
  obtain ⟨tt, htt, ett⟩ := htt
  have hE : ∃ t, EntryText (semEntry id (Entry.ofV1 e)) t ∧
      (match e.name with | none => [] | some i => (Ident.ofV1 i).display ++ ['=']) ++ (tt ++ vt) = t := by
    have e0 : semEntry id (Entry.ofV1 e) = ⟨e.ty.map V1.Ident.value, e.name.map V1.Ident.value, Value.ofV1 e.value⟩ := by
      simp [semEntry, Entry.ofV1, Ident.ofV1, Function.comp_def]
    cases hn : e.name with
    | none =>
      refine ⟨tt ++ vt, ?_, rfl⟩
      rw [e0, hn]
      exact EntryEnd.arg htt hvt
    | some i =>
      refine ⟨_, ?_, rfl⟩
      rw [e0, hn]
      have := EntryEnd.prop (k := false) (ak := []) (ae := []) (V1Name.text (hnm i (by rw [hn]; rfl))) .nil .nil htt hvt
      simpa [Ident.ofV1] using this
  obtain ⟨t, hE, et⟩ := hE
  refine ⟨w, t, ?_, rfl, .space (hs.swapH (by simp) (starts_nl (EntryEnd.starts hE) _)) hne, hE⟩
  rw [← et, ← ett]
  simp only [Entry.ensureV2, Entry.ofV1, Entry.display, Entry.displayKey, Entry.displayTy, hw, htr, Option.getD_some, List.append_nil]
  rw [← evt]
  cases e.name <;> cases e.ty <;> cases Value.ofV1 e.value <;> simp

theorem entries_v1 : ∀ {es : List V1.Entry}, (∀ e ∈ es, V1Entry e) →
    EntriesText ((es.map Entry.ofV1).map (semEntry id)) (displayEntries ((es.map Entry.ofV1).map Entry.ensureV2))
  | [], _ => .nil
  | e :: es, h => by
    obtain ⟨w, t, hd, hf, hl, ht⟩ := entry_v1 (h e (by simp))
    have ih := entries_v1 fun e' he => h e' (List.mem_cons_of_mem _ he)
    have := EntriesText.cons hl ht ih
    simp only [List.map_cons, displayEntries, hf, hd]
    simpa using this

theorem items_of {k : Bool} {r B m X : Str} {d : SNode Value} {ds : List (SNode Value)} (hB : Text (.node k d) (m ++ (X ++ r)) B)
    (hm : TermText m (X ++ r)) (hX : Text (.nodes ds) r X) : Text (.items (d :: ds)) r (B ++ (m ++ X)) := by
  generalize hc : Cat.nodes ds = c at hX
  cases hX with
  | empty hL => cases hc; exact .lastTerm hB hm hL
  | @items _ L T _ hL hT =>
    cases hc
    exact .cons (by simpa using hB) (by simpa using hm) hL hT
  | _ => cases hc

mutual
theorem node_v1 {n : V1.Node} (h : V1Node n) (k : Nat) :
    ∀ {ty : Option V1.Ident} {name : V1.Ident} {es : List V1.Entry} {ch : Option V1.Document} {l b t : Option Str} {sp : Span},
      n = .mk ty name es ch l b t sp → ∃ B, (Node.ofV1 n).ensureV2.stringify k = l.getD [] ++ (B ++ (v1Terminator t ++ v1Trailing t)) ∧
        (∀ r, Text (.node false (semNode id (Node.ofV1 n))) r B) ∧ Starts B := by
  intro ty name es ch l b t sp en
  have head : (∀ i ∈ ty, Writable i.value) → Writable name.value → ∃ nt tt, StrText nt name.value ∧ TyText nt (ty.map V1.Ident.value) tt ∧
      ((ty = none → tt = []) ∧ ∀ i, ty = some i → tt = '(' :: ((Ident.ofStr i.value).display ++ [')'])) ∧
      (Ident.ofStr (Ident.ofV1 name).value).display = nt ∧ ∀ x, Starts (tt ++ (nt ++ x)) := by
    intro ht hn
    have hnt : StrText (Ident.ofStr (Ident.ofV1 name).value).display name.value := StrText.ident rfl hn
    cases ty with
    | none => exact ⟨_, [], hnt, .none, ⟨fun _ => rfl, by rintro i ⟨⟩⟩, rfl, fun x => hnt.starts.append x⟩
    | some i =>
      have hi : StrText (Ident.ofStr i.value).display i.value := StrText.ident rfl (ht i rfl)
      have := TyText.some (nx := (Ident.ofStr (Ident.ofV1 name).value).display) (b := []) (a := []) (f := []) hi .nil .nil .nil
      refine ⟨_, _, hnt, this, ?_, rfl, fun x => ?_⟩
      · exact ⟨by rintro ⟨⟩, by rintro i' ⟨⟩; simp⟩
      · exact ⟨'(', _, rfl, by simp [Start]⟩
  cases h with
  | leaf ht hn he =>
    cases en
    obtain ⟨nt, tt, h1, h2, e1, e2, hst⟩ := head ht hn
    have hT := entries_v1 he
    refine ⟨tt ++ (nt ++ (displayEntries ((es.map Entry.ofV1).map Entry.ensureV2) ++ [])), ?_, fun r => ?_, hst _⟩
    · simp only [Node.ofV1, Node.ensureV2, optDocOfV1, ensureOptDoc, Node.stringify, childrenStringify]
      rw [e2]
      cases ty with
      | none => simp [e1.1 rfl]
      | some i => simp [e1.2 i rfl, Ident.ofV1]
    · have := Text.leaf (r := r) h2 h1 hT (.midSpace .nil)
      simpa [Node.ofV1, semNode, optDocOfV1, semOptDoc, Ident.ofV1, Function.comp_def] using this
  | @block _ _ _ d _ _ b _ ht hn he hb hd =>
    cases en
    obtain ⟨nt, tt, h1, h2, e1, e2, hst⟩ := head ht hn
    have hT := entries_v1 he
    obtain ⟨hf, hD⟩ := doc_v1 hd (k + 4)
    refine ⟨tt ++ (nt ++ (displayEntries ((es.map Entry.ofV1).map Entry.ensureV2) ++ (b ++ '{' ::
      ((Document.ofV1 d).ensureV2.stringify (k + 4) ++ '}' :: [])))), ?_, fun r => ?_, hst _⟩
    · simp only [Node.ofV1, Node.ensureV2, optDocOfV1, ensureOptDoc, Node.stringify, childrenStringify]
      rw [e2, hf]
      cases ty with
      | none => simp [e1.1 rfl]
      | some i => simp [e1.2 i rfl, Ident.ofV1]
    · have := Text.block (k := false) (r := r) h2 h1 hT (fun x => .midSpace (hb.swap (r' := '{' :: x) (by simp) (by rintro q ⟨⟩)))
        (fun x => hD ('}' :: x) (Or.inr ⟨by simp, by rintro q ⟨⟩⟩)) (.tailSpace .nil)
      simpa [Node.ofV1, semNode, optDocOfV1, semOptDoc, Ident.ofV1, Function.comp_def] using this
theorem doc_v1 {r : Str} {d : V1.Document} (h : V1Doc r d) (k : Nat) : (Document.ofV1 d).ensureV2.format.isNone = false ∧
    ∀ r', (r' = r ∨ (r ≠ [] ∧ ∀ q, r' ≠ '\n' :: q)) →
      Text (.nodes (semDoc id (Document.ofV1 d))) r' ((Document.ofV1 d).ensureV2.stringify k) := by
  cases h with
  | @mk _ ns l t sp h =>
    refine ⟨rfl, fun r' hr => ?_⟩
    have := nodes_v1 h k r' hr
    simpa [Document.ofV1, Document.ensureV2, Document.stringify, semDoc] using this
theorem nodes_v1 {r last p : Str} {ns : List V1.Node} (h : V1Nodes r last p ns) (k : Nat) (r' : Str)
    (hr : r' = r ∨ (r ≠ [] ∧ ∀ q, r' ≠ '\n' :: q)) :
    Text (.nodes (semNodes id (nodesOfV1 ns))) r' (p ++ (nodesStringify (ensureNodes (nodesOfV1 ns)) k ++ last)) := by
  cases h with
  | nil h =>
    have h' : LSpace r' (p ++ last) := by
      rcases hr with rfl | ⟨h1, h2⟩
      · exact h
      · exact h.swap h1 h2
    have := Text.empty (.leadSpace (L := []) (r := r') (by simpa using h') .leadNil)
    simpa [nodesOfV1, ensureNodes, nodesStringify, semNodes] using this
  | @cons _ _ _ t u ty name es ch l b sp ns hp hn ht h' =>
    obtain ⟨B, hB, hT, hst⟩ := node_v1 hn k rfl
    have ih := nodes_v1 h' k r' hr
    obtain ⟨e1, hterm⟩ := V1End.left ht
    have hm : ∀ x, TermText (v1Terminator (some t)) x := by
      intro x
      rcases hterm with e | e
      · exact Or.inl e
      · exact Or.inr (Or.inl (e ▸ lf_seq x))
    have hI := items_of (hT _) (hm _) ih
    have := Text.items (.leadSpace (L := []) (w := p ++ l.getD []) (by
      simpa using hp.swapH (by simp) (starts_nl ((hst.append (v1Terminator (some t) ++ (u ++ (nodesStringify (ensureNodes (nodesOfV1 ns)) k ++ last)))).append r') _)) .leadNil) hI
    simp only [nodesOfV1, ensureNodes, nodesStringify, semNodes, hB, e1]
    simpa using this
end

end Kdl
