import Verif.Lemmas.Parser.ExactEntry
/-
What the parser accepts as a node or a document is in the grammar. The relation
`Tree` is the grammar with the parsed nodes in place of their data.
-/

namespace Kdl
open Spec

theorem ends_head {r : Str} (h : Ends r) (hn : nodeSpace r = .back) :
    r = [] ∨ ∃ c q, r = c :: q ∧ (c = '=' ∨ c = ')' ∨ c = '{' ∨ c = '}' ∨ c = ';' ∨ Newline c ∨ (c = '/' ∧ ∃ q', q = '/' :: q')) := by
  obtain ⟨u, q, h⟩ := h
  unfold valueTerminator at h
  simp only [alt_ok, eof_ok, lit_ok, List.cons_append, List.nil_append, hn] at h
  rcases h with h | ⟨_, h | ⟨_, h | ⟨_, h | ⟨_, h | ⟨_, h | ⟨_, h⟩⟩⟩⟩⟩⟩
  · exact Or.inl h.1
  · exact Or.inr ⟨_, _, h, by simp⟩
  · exact Or.inr ⟨_, _, h, by simp⟩
  · exact Or.inr ⟨_, _, h, by simp⟩
  · exact Or.inr ⟨_, _, h, by simp⟩
  · cases h
  · obtain ⟨c, q, rfl, hc⟩ := nodeTerminator_head h
    refine Or.inr ⟨c, q, rfl, ?_⟩
    rcases hc with hc | hc | hc
    · exact Or.inr (Or.inr (Or.inr (Or.inr (Or.inl hc))))
    · exact Or.inr (Or.inr (Or.inr (Or.inr (Or.inr (Or.inl (newlineStart_iff.mp hc))))))
    · exact Or.inr (Or.inr (Or.inr (Or.inr (Or.inr (Or.inr hc)))))

theorem ends_notStarts {r : Str} (h : Ends r) (hn : nodeSpace r = .back) : ¬ Starts r := by
  rintro ⟨c, q, rfl, hc⟩
  have f := hc.facts
  rcases ends_head h hn with h | ⟨c', q', e, h⟩
  · cases h
  · have := (List.cons.inj e).1
    subst this
    rcases h with h | h | h | h | h | h | h
    · exact f.2.2.2.2.2.1 h
    · exact f.2.2.2.2.2.2.2 h
    · exact f.2.2.2.1 h
    · exact f.2.2.2.2.1 h
    · exact f.2.2.2.2.2.2.1 h
    · exact f.1 (Or.inr h)
    · exact f.2.1 h.1

theorem ends_notSlash {r : Str} (h : Ends r) (hn : nodeSpace r = .back) (q : Str) : r ≠ '/' :: '-' :: q := by
  rintro rfl
  rcases ends_head h hn with h | ⟨c', q', e, h⟩
  · cases h
  · obtain ⟨rfl, rfl⟩ := List.cons.inj e
    rcases h with h | h | h | h | h | h | ⟨_, q', h⟩
    · exact absurd h (by decide)
    · exact absurd h (by decide)
    · exact absurd h (by decide)
    · exact absurd h (by decide)
    · exact absurd h (by decide)
    · revert h; decide
    · exact absurd (List.cons.inj h).1 (by decide)

section
variable [FloatIO]

omit [FloatIO] in
theorem sepFuel_noBack {α β : Type} {p : P α} {sep : P β} : ∀ (n : Nat) (s : Str), sepFuel p sep n s ≠ .back := by
  intro n
  induction n with
  | zero => intro s h; cases h
  | succ n ih =>
    intro s h
    unfold sepFuel at h
    cases h1 : sep s with
    | ok b q =>
      rw [h1] at h
      simp only at h
      by_cases hl : q.length < s.length
      · simp only [hl, if_true] at h
        cases h2 : p q with
        | ok a r =>
          rw [h2] at h
          simp only at h
          cases h3 : sepFuel p sep n r with
          | back => exact ih _ h3
          | _ => rw [h3] at h; cases h
        | _ => rw [h2] at h; cases h
      · simp only [hl, if_false] at h
        cases h
    | _ => rw [h1] at h; cases h

omit [FloatIO] in
theorem sep1_back_inv {α β : Type} {p : P α} {sep : P β} {s : Str} (h : sep1 p sep s = .back) : p s = .back := by
  unfold sep1 at h
  cases h1 : p s with
  | back => rfl
  | ok a q =>
    rw [bind_eq h1] at h
    cases h2 : sepMore p sep q with
    | back => exact absurd h2 (sepFuel_noBack _ _)
    | ok as r => rw [bind_eq h2] at h; cases h
    | cut => rw [bind_cut h2] at h; cases h
    | crash => rw [bind_crash h2] at h; cases h
  | cut => rw [bind_cut h1] at h; cases h
  | crash => rw [bind_crash h1] at h; cases h

omit [FloatIO] in
theorem void_back_inv {α : Type} {p : P α} {s : Str} (h : void p s = .back) : p s = .back := by
  unfold Kdl.void at h
  cases h1 : p s with
  | back => rfl
  | ok a q => rw [bind_eq h1] at h; cases h
  | cut => rw [bind_cut h1] at h; cases h
  | crash => rw [bind_crash h1] at h; cases h

/-- No node follows. -/
def Stuck (total : Nat) (r : Str) : Prop :=
  (∀ n x, baseNode total r ≠ .ok n x) ∧ ∀ n x, (do slashdash; baseNode total : P Node) r ≠ .ok n x

/-- Where a node starts, an entry could start. -/
theorem baseNode_entry {total : Nat} {r x : Str} {n : Node} (h : baseNode total r = .ok n x) (hr : nodeSpace r = .back) :
    Starts r ∧ entryBody total r ≠ .back := by
  rw [baseNode_unfold] at h
  obtain ⟨ty, s1, afterTy, s2, name, s3, es, s4, ch, s5, bt, t, s6, _, _, _, h1, h2, h3, _⟩ := baseNodeF_inv h
  rcases opt_ok.mp h1 with ⟨⟨b, i, a⟩, rfl, h1'⟩ | ⟨rfl, rfl, _⟩
  · obtain ⟨it, rfl, _⟩ := tyP_exact h1'
    refine ⟨⟨_, _, rfl, by simp [Start]⟩, ?_⟩
    rw [entryBody_value (stringP_back ?_ ?_ ?_)]
    · obtain ⟨_, _, _, _, _, h4⟩ := identifier_inv h3
      have h5 := valueBody_string h4
      unfold value
      have h6 : opt (do let t ← tyP total; let a ← takeP nodeSpace0; return (t, a) : P _)
          ('(' :: (b ++ (it ++ (a ++ ')' :: s1)))) = .ok (some ((b, i, a), afterTy)) s2 := by
        apply opt_some
        rw [bind_eq h1', bind_eq h2]
        rfl
      rw [bind_here, bind_eq h6, bind_here, bind_eq h5, bind_here]
      intro e; cases e
    · rintro c q ⟨⟩; decide
    · rintro q ⟨⟩
    · rintro q ⟨⟩
  · obtain ⟨rfl, hw, hs2⟩ := takeSpace_inv h2
    have := nodeSpace0_none hr hw hs2
    subst this
    simp only [List.nil_append] at *
    obtain ⟨_, _, _, _, _, h4⟩ := identifier_inv h3
    obtain ⟨c, q, e, hc⟩ := stringP_head h4
    refine ⟨⟨c, q, e, by rcases hc with hc | hc | hc <;> simp [Start, hc]⟩, ?_⟩
    unfold entryBody
    rw [bind_eq (opt_some h3)]
    refine NoBack.bind (.opt _) (fun o => ?_) _
    cases o with
    | none => exact .pure _
    | some ak => exact .bind (.takeP .nodeSpace0) fun _ => .bind (.cutErr _) fun _ => .pure _

theorem nodeEntry_back {total : Nat} {s l r : Str} (h : entryLeadingF (nodeEntry total) s = .ok l r)
    (hb : nodeEntry total s = .back) : entryBody total r = .back := by
  rw [nodeEntry_unfold] at hb
  unfold nodeEntryF at hb
  rw [bind_eq h, bind_here] at hb
  cases he : entryBody total r with
  | back => rfl
  | ok a q => rw [bind_eq he, bind_here] at hb; cases hb
  | cut => rw [bind_cut he] at hb; cases hb
  | crash => rw [bind_crash he] at hb; cases hb

theorem baseNode_nodeEntry {total : Nat} {r x : Str} {n : Node} (h : baseNode total r = .ok n x) (hr : nodeSpace r = .back) :
    nodeEntry total r ≠ .back := by
  intro hb
  obtain ⟨hs, he⟩ := baseNode_entry h hr
  refine he (nodeEntry_back (l := []) ?_ hb)
  unfold entryLeadingF
  apply takeP_nil (a := none)
  have h0 : nodeSpace0 r = .ok () r := WSp.nil _ hr
  rw [bind_eq h0]
  exact opt_none (bind_back (void_back (sep1_back (bind_back hs.solid.slashdash))))

/-- After the entries of a node no node follows, unless the last one ends with a keyword. -/
theorem Stuck.of {total : Nat} {s l r : Str} (h : entryLeadingF (nodeEntry total) s = .ok l r)
    (hb : nodeEntry total s = .back) (hr : nodeSpace r = .back)
    (hsd : (do slashdash; nodeEntry total : P Entry) r = .back) : Stuck total r := by
  constructor
  · intro n x hn
    exact (baseNode_entry hn hr).2 (nodeEntry_back h hb)
  · intro n x hn
    obtain ⟨_, q, h1, h2⟩ := bind_ok.mp hn
    rw [bind_eq h1] at hsd
    obtain ⟨b, _, _, h3⟩ := slashdash_inv h1
    exact baseNode_nodeEntry h2 (lineSpace_back_iff.mp h3).1 hsd

theorem Stuck.ends {total : Nat} {r : Str} (h : Ends r) (hr : nodeSpace r = .back) : Stuck total r := by
  constructor
  · intro n x hn
    exact ends_notStarts h hr (baseNode_entry hn hr).1
  · intro n x hn
    obtain ⟨_, q, h1, _⟩ := bind_ok.mp hn
    obtain ⟨b, rfl, _, _⟩ := slashdash_inv h1
    exact ends_notSlash h hr _ rfl

/-- Slashdashed children blocks shorter than `N` are in the grammar. -/
def BlocksOk (total N : Nat) : Prop := ∀ x u r, x.length ≤ N → slashdashedChildrenF total (baseNode total) x = .ok u r →
  ∃ w C, x = w ++ (C ++ r) ∧ NSpace C w ∧ C ≠ [] ∧ Text .blocks [] C

theorem sdSep_stop {total : Nat} {s r q : Str} {l : List Entry} {u : Unit}
    (h : sep1 (do slashdash; nodeEntry total : P Entry) nodeSpace1 s = .ok l r) (hq : nodeSpace1 r = .ok u q) :
    (do slashdash; nodeEntry total : P Entry) q = .back := by
  obtain ⟨a, x, as, _, h2, rfl⟩ := sep1_ok.mp h
  have hsf : Sfx (do slashdash; nodeEntry total : P Entry) := by
    have := (Strict.nodeEntry total).sfx
    psolve
  have h3 := sepMore_inv hsf h2
  clear h2 h
  rename_i hh
  clear hh
  induction h3 with
  | nil h => rw [h] at hq; cases hq
  | stop h _ hp => rw [h] at hq; cases hq; exact hp
  | cons _ _ _ _ ih => exact ih hq

/-- What follows the entries of a node. -/
theorem mid_exact {total : Nat} {s r : Str} {u : Unit} (hB : BlocksOk total s.length)
    (h : beforeNodeChildrenF total (baseNode total) s = .ok u r) :
    ∃ w, s = w ++ r ∧ nodeSpace r = .back ∧ Text (.mid false) r w ∧
      (Text (.mid true) r w ∨ w = [] ∨ ((∃ x, nodeSpace1 s = .ok () x) ∧ (nodeEntry total s = .back → Stuck total r))) := by
  unfold beforeNodeChildrenF at h
  obtain ⟨_, q, h, hv⟩ := bind_ok.mp h
  obtain ⟨v, rfl, hvs, hr⟩ := nodeSpace0_iff.mp hv
  rcases alt_ok.mp h with h | ⟨_, h⟩
  · obtain ⟨_, q1, h1, h⟩ := bind_ok.mp h
    obtain ⟨_, q2, h2, h⟩ := bind_ok.mp h
    obtain ⟨_, q3, h3, h4⟩ := bind_ok.mp h
    obtain ⟨w, rfl, hw, hwne, _⟩ := nodeSpace1_inv h1
    obtain ⟨S, rfl, hS, _⟩ := sdEntries_exact h2
    obtain ⟨v', rfl, hv', hvne, hn⟩ := nodeSpace1_inv h3
    obtain ⟨w0, C, rfl, hw0, hCne, hC⟩ := hB _ _ _ (by simp; omega) h4
    obtain ⟨x, rfl⟩ : ∃ x, C = '/' :: '-' :: x := by cases hC <;> exact ⟨_, rfl⟩
    have : w0 = [] := by
      refine nodeSpace0_none hn (hw0.swapH (by simp) ?_) (slash_facts (by decide) _).1
      rintro _ ⟨⟩
    subst this
    have hS' : NSpace S w := hw.cut (SdEnd.ne hS)
    have hv'' : NSpace ('/' :: '-' :: x) v' := hv'.swapH (by simp) (by rintro _ ⟨⟩)
    exact ⟨w ++ (S ++ (v' ++ ('/' :: '-' :: x ++ v))), by simp, hr, .midBoth hS' hwne hS hv'' hvne hC hvs,
      Or.inl (.midBoth hS' hwne hS hv'' hvne hC hvs)⟩
  rcases alt_ok.mp h with h | ⟨hnot, h⟩
  · obtain ⟨_, q1, h1, h2⟩ := bind_ok.mp h
    have h1' := h1
    obtain ⟨w, rfl, hw, hwne, hn⟩ := nodeSpace1_inv h1
    have h2' := h2
    obtain ⟨S, rfl, hS, hend⟩ := sdEntries_exact h2
    have hS' : NSpace S w := hw.cut (SdEnd.ne hS)
    refine ⟨w ++ (S ++ v), by simp, hr, .midEntries hS' hwne hS hvs, ?_⟩
    by_cases hvne : v = []
    · subst hvne
      rcases hend with hend | hend
      · exact Or.inr (Or.inr ⟨⟨_, h1'⟩, fun _ => Stuck.ends hend hr⟩)
      · simp only [List.append_nil]
        exact Or.inl (.midKeyword hS' hwne hend)
    · refine Or.inr (Or.inr ⟨⟨_, h1'⟩, fun hb => ?_⟩)
      obtain ⟨_, _, _, h5⟩ := (hvs.space0 hr).space1 hvne
      obtain ⟨l, h6⟩ := void_ok.mp h2'
      refine Stuck.of (s := w ++ (S ++ (v ++ r))) (l := w ++ (S ++ v)) ?_ hb hr (sdSep_stop h6 h5)
      unfold entryLeadingF
      have h7 : nodeSpace0 (w ++ (S ++ (v ++ r))) = .ok () (S ++ (v ++ r)) := by
        exact hw.space0 hn
      have h9 : (do nodeSpace0; opt (do slashdashedEntriesF (nodeEntry total); nodeSpace1) : P _) (w ++ (S ++ (v ++ r)))
          = .ok (some ()) r := by
        rw [bind_eq h7]
        apply opt_some
        have h2' : slashdashedEntriesF (nodeEntry total) (S ++ (v ++ r)) = .ok () (v ++ r) := h2'
        rw [bind_eq h2']
        exact h5
      have := takeP_eq (t := w ++ (S ++ v)) (r := r) (by simpa using h9)
      simpa using this
  rcases alt_ok.mp h with h | ⟨_, h⟩
  · obtain ⟨_, q1, h1, h4⟩ := bind_ok.mp h
    obtain ⟨w, rfl, hw, hwne, hn⟩ := nodeSpace1_inv h1
    obtain ⟨w0, C, rfl, hw0, hCne, hC⟩ := hB _ _ _ (by simp) h4
    obtain ⟨x, rfl⟩ : ∃ x, C = '/' :: '-' :: x := by cases hC <;> exact ⟨_, rfl⟩
    have : w0 = [] := by
      refine nodeSpace0_none hn (hw0.swapH (by simp) ?_) (slash_facts (by decide) _).1
      rintro _ ⟨⟩
    subst this
    have hw' : NSpace ('/' :: '-' :: x) w := hw.swapH (by simp) (by rintro _ ⟨⟩)
    exact ⟨w ++ ('/' :: '-' :: x ++ v), by simp, hr, .midBlocks hw' hwne hC hvs, Or.inl (.midBlocks hw' hwne hC hvs)⟩
  · obtain ⟨w, rfl, hw, hn⟩ := nodeSpace0_iff.mp h
    have : v = [] := nodeSpace0_none hn hvs hr
    subst this
    simp only [List.nil_append] at *
    refine ⟨w, rfl, hr, .midSpace hw, ?_⟩
    by_cases hwne : w = []
    · exact Or.inr (Or.inl hwne)
    · have h0 : nodeSpace0 (w ++ r) = .ok () r := hw.space0 hr
      obtain ⟨_, _, _, h5⟩ := (hw.space0 hr).space1 hwne
      refine Or.inr (Or.inr ⟨⟨_, h5⟩, fun hb => ?_⟩)
      have hsd : slashdashedEntries total r = .back := by
        rw [bind_eq h5] at hnot
        exact hnot
      refine Stuck.of (l := w) ?_ hb hr ?_
      · unfold entryLeadingF
        have h9 : (do nodeSpace0; opt (do slashdashedEntriesF (nodeEntry total); nodeSpace1) : P _) (w ++ r)
            = .ok none r := by
          rw [bind_eq h0]
          exact opt_none (bind_back hsd)
        exact takeP_eq h9
      · unfold slashdashedEntries slashdashedEntriesF at hsd
        exact sep1_back_inv (void_back_inv hsd)

/-! ### The grammar with the parsed nodes -/

omit [FloatIO] in
/-- The type annotation of a node in the source. -/
def TySrc (nt : Str) (ty : Option Ident) (f : NodeFmt) (tt : Str) : Prop :=
  (ty = none ∧ tt = []) ∨ ∃ i it, ty = some i ∧ i.repr = some it ∧ StrText it i.value ∧ NSpace it f.beforeTyName ∧
    NSpace [')'] f.afterTyName ∧ NSpace nt f.afterTy ∧
    tt = '(' :: (f.beforeTyName ++ (it ++ (f.afterTyName ++ ')' :: f.afterTy)))

omit [FloatIO] in
theorem TySrc.text {nt : Str} {ty : Option Ident} {f : NodeFmt} {tt : Str} (h : TySrc nt ty f tt) :
    TyText nt (ty.map Ident.value) tt := by
  rcases h with ⟨rfl, rfl⟩ | ⟨i, it, rfl, _, h1, h2, h3, h4, rfl⟩
  · exact .none
  · exact .some h1 h2 h3 h4

omit [FloatIO] in
/-- The recorded terminator of a node. -/
def termOf (n : Node) : Str := match n.format with | some f => f.terminator | none => []

omit [FloatIO] in
/-- The recorded text in front of a node. -/
def leadOf (n : Node) : Str := match n.format with | some f => f.leading | none => []

/-- What is recorded after the children block of a node. -/
def TailSrc (b : Str) : Prop := b = [] ∨ ∃ w C, b = w ++ C ∧ NSpace C w ∧ Text .blocks [] C

theorem TailSrc.tail {b u r : Str} (h : TailSrc b) (hu : NSpace r u) : Text .tail r (b ++ u) := by
  rcases h with rfl | ⟨w, C, rfl, hw, hC⟩
  · exact .tailSpace hu
  · rw [List.append_assoc]
    exact .tailBlocks hw hC hu

omit [FloatIO] in
/-- The recorded terminator of a node in front of the terminator `m`: it may be missing
if the node has children. -/
def TermSrc (n : Node) (m : Str) : Prop := termOf n = m ∨ (termOf n = [] ∧ n.children.isSome = true)

/-- The categories of `Tree`. -/
inductive TCat where
  | node (k : Bool) (n : Node)
  | items (ns : List Node) (trail : Str)
  | nodes (d : Document)

/-- `Tree c r t`: the text `t`, in front of `r`, is the source of the nodes of `c`. -/
inductive Tree : TCat → Str → Str → Prop
  | leaf {k : Bool} {ty : Option Ident} {name : Ident} {es : List Entry} {f : NodeFmt} {span : Span} {tt nt T w r : Str}
      (h1 : TySrc nt ty f tt) (hn : name.repr = some nt) (h2 : StrText nt name.value) (h3 : EntsSrc es T)
      (h4 : Text (.mid k) r w) (h5 : f.beforeTerminator = w) (h6 : f.trailing = []) :
      Tree (.node k (.mk ty name es none (some f) span)) r (tt ++ (nt ++ (T ++ w)))
  | leafKeyword {ty : Option Ident} {name : Ident} {es : List Entry} {e : Entry} {fe : EntryFmt} {f : NodeFmt} {span : Span}
      {tt nt T w t r : Str}
      (h1 : TySrc nt ty f tt) (hn : name.repr = some nt) (h2 : StrText nt name.value) (h3 : EntsSrc es T)
      (hf : e.format = some fe) (hl : fe.leading = w) (hd : e.display = w ++ t) (hw : EntryLead t w)
      (ht : EntryEnd true (semEntry id e) t) (h5 : f.beforeTerminator = []) (h6 : f.trailing = []) :
      Tree (.node true (.mk ty name (es ++ [e]) none (some f) span)) r (tt ++ (nt ++ (T ++ (w ++ t))))
  | block {k : Bool} {ty : Option Ident} {name : Ident} {es : List Entry} {d : Document} {f : NodeFmt} {span : Span}
      {tt nt T w D v u r : Str}
      (h1 : TySrc nt ty f tt) (hn : name.repr = some nt) (h2 : StrText nt name.value) (h3 : EntsSrc es T)
      (h4 : ∀ x, Text (.mid false) ('{' :: x) w) (hw : f.beforeChildren = w) (hd : Tree (.nodes d) ('}' :: (v ++ r)) D)
      (h6 : TailSrc f.beforeTerminator) (hu : NSpace r u) (h7 : v = f.beforeTerminator ++ u) (h8 : f.trailing = []) :
      Tree (.node k (.mk ty name es (some d) (some f) span)) r (tt ++ (nt ++ (T ++ (w ++ '{' :: (D ++ '}' :: v)))))
  | last {k : Bool} {r B : Str} {n : Node} (hB : Tree (.node k n) r B) (ht : termOf n = []) : Tree (.items [n] []) r B
  | lastTerm {k : Bool} {r B m L : Str} {n : Node} (hB : Tree (.node k n) (m ++ (L ++ r)) B) (hm : TermText m (L ++ r))
      (hL : Text .lead r L) (ht : TermSrc n m) : Tree (.items [n] L) r (B ++ (m ++ L))
  | lastSlash {r q B : Str} {n : Node} (hB : Tree (.node true n) ('/' :: '-' :: q ++ r) B)
      (hL : Text .lead r ('/' :: '-' :: q)) (ht : termOf n = []) : Tree (.items [n] ('/' :: '-' :: q)) r (B ++ '/' :: '-' :: q)
  | cons {k : Bool} {r B m L T tr : Str} {n n2 : Node} {ns : List Node} (hB : Tree (.node k n) (m ++ (L ++ (T ++ r))) B)
      (hm : TermText m (L ++ (T ++ r))) (hL : Text .lead (T ++ r) L) (ht : TermSrc n m)
      (hT : Tree (.items (n2 :: ns) tr) r T) (h2 : leadOf n2 = L) :
      Tree (.items (n :: n2 :: ns) tr) r (B ++ (m ++ (L ++ T)))
  | empty {r L : Str} {f : DocFmt} {span : Span} (hL : Text .lead r L) (h1 : f.leading = L) (h2 : f.trailing = []) :
      Tree (.nodes (.mk [] (some f) span)) r L
  | items {r L T : Str} {f : DocFmt} {span : Span} {n : Node} {ns : List Node} (hL : Text .lead (T ++ r) L)
      (hT : Tree (.items (n :: ns) f.trailing) r T) (h1 : leadOf n = L) (h2 : f.leading = []) :
      Tree (.nodes (.mk (n :: ns) (some f) span)) r (L ++ T)

/-- The data of a category of `Tree`. -/
def TCat.cat : TCat → Cat
  | .node k n => .node k (semNode id n)
  | .items ns _ => .items (semNodes id ns)
  | .nodes d => .nodes (semDoc id d)

theorem Tree.text {c : TCat} {r t : Str} (h : Tree c r t) : Text c.cat r t := by
  induction h with
  | leaf h1 hn h2 h3 h4 h5 h6 =>
    exact .leaf h1.text h2 h3.text.1 h4
  | leafKeyword h1 hn h2 h3 hf hl hd hw ht h5 h6 =>
    simp only [TCat.cat, semNode, List.map_append, List.map_cons, List.map_nil]
    exact .leafKeyword h1.text h2 h3.text.1 hw ht
  | block h1 hn h2 h3 h4 hw hd h6 hu h7 h8 ih =>
    exact .block h1.text h2 h3.text.1 h4 (ih.brace (Or.inr rfl)) (h7 ▸ h6.tail hu)
  | last _ _ ih => exact .last ih
  | lastTerm _ hm hL _ ih => exact .lastTerm ih hm hL
  | lastSlash _ hL _ ih => exact .lastSlash ih hL
  | cons _ hm hL _ _ _ ih1 ih2 => exact .cons ih1 hm hL ih2
  | empty hL _ _ => exact .empty hL
  | items hL _ _ _ ih => exact .items hL ih

theorem Tree.setLeading {k : Bool} {n : Node} {r B : Str} (h : Tree (.node k n) r B) (L : Str) :
    Tree (.node k (n.setFormat (n.format.map fun f => { f with leading := L }))) r B := by
  cases h with
  | leaf h1 hn h2 h3 h4 h5 h6 => exact .leaf (by exact h1) hn h2 h3 h4 h5 h6
  | leafKeyword h1 hn h2 h3 hf hl hd hw ht h5 h6 => exact .leafKeyword (by exact h1) hn h2 h3 hf hl hd hw ht h5 h6
  | block h1 hn h2 h3 h4 hw hd h6 hu h7 h8 => exact .block (by exact h1) hn h2 h3 h4 hw hd h6 hu h7 h8

theorem Tree.format {k : Bool} {n : Node} {r B : Str} (h : Tree (.node k n) r B) : ∃ f, n.format = some f := by
  cases h with
  | leaf => exact ⟨_, rfl⟩
  | leafKeyword => exact ⟨_, rfl⟩
  | block => exact ⟨_, rfl⟩

/-- A node that the parser has read from `s`, up to `r`. -/
def NodeSrc (total : Nat) (s r : Str) (n : Node) : Prop :=
  ∃ B, s = B ++ r ∧ Starts B ∧ Tree (.node false n) r B ∧ nodeSpace r = .back ∧ (Tree (.node true n) r B ∨ Stuck total r) ∧
    ((termOf n = [] ∧ (nodeTerminator r = .back ∨ n.children.isSome = true)) ∨
      ∃ u x, nodeTerminator r = .ok u x ∧ r = termOf n ++ x)

/-- Documents in blocks shorter than `N` are in the grammar. -/
def NodesOk (total N : Nat) : Prop := ∀ x y d, x.length ≤ N → nodesF total (baseNode total) x = .ok d ('}' :: y) →
  ∃ D, x = D ++ '}' :: y ∧ Tree (.nodes d) ('}' :: y) D

theorem sdBlock_exact {total N : Nat} (hN : NodesOk total N) {s r : Str} {u : Unit} (hs : s.length ≤ N)
    (h : sdBlock total s = .ok u r) :
    ∃ b D cs, s = '/' :: '-' :: (b ++ '{' :: (D ++ '}' :: r)) ∧ LSpace ['{'] b ∧ ∀ x, Text (.nodes cs) ('}' :: x) D := by
  obtain ⟨_, q, h1, h3⟩ := bind_ok.mp h
  obtain ⟨d, h4⟩ := void_ok.mp h3
  obtain ⟨b, rfl, hb, _⟩ := slashdash_inv h1
  obtain ⟨q1, rfl, h2⟩ := nodeChildrenF_inv h4
  obtain ⟨D, rfl, hD⟩ := hN _ _ _ (by simp at hs; omega) h2
  exact ⟨b, D, _, rfl, LSpace.cut (t := ['{']) hb (by simp), fun x => hD.text.brace (Or.inr rfl) x⟩

theorem sdBlocks_exact {total N : Nat} (hN : NodesOk total N) {q r : Str} {l : List Unit} (hs : q.length ≤ N)
    (h : SepMore (sdBlock total) nodeSpace1 q l r) :
    q = r ∨ ∃ w C, q = w ++ (C ++ r) ∧ NSpace C w ∧ w ≠ [] ∧ C ≠ [] ∧ Text .blocks [] C := by
  induction h with
  | nil _ => exact Or.inl rfl
  | stop _ _ _ => exact Or.inl rfl
  | cons h hl hp ht ih =>
    right
    obtain ⟨w, rfl, hw, hne, _⟩ := nodeSpace1_inv h
    obtain ⟨b, D, cs, rfl, hb, hD⟩ := sdBlock_exact hN (by omega) hp
    have hw' : ∀ x, NSpace ('/' :: '-' :: x) w := fun x => hw.swapH (by simp) (by rintro _ ⟨⟩)
    rcases ih (by simp at hs; omega) with rfl | ⟨w', T, rfl, hw2, hne', _, hT⟩
    · exact ⟨w, '/' :: '-' :: (b ++ '{' :: (D ++ ['}'])), by simp, hw' _, hne, by simp, .blocksOne hb hD⟩
    · exact ⟨w, '/' :: '-' :: (b ++ '{' :: (D ++ '}' :: (w' ++ T))), by simp, hw' _, hne, by simp, .blocksCons hb hD hw2 hne' hT⟩

theorem blocksOk {total N : Nat} (hN : NodesOk total N) : BlocksOk total N := by
  intro x u r hx h
  unfold slashdashedChildrenF at h
  obtain ⟨_, q, h0, h4⟩ := bind_ok.mp h
  obtain ⟨w, rfl, hw, _⟩ := nodeSpace0_iff.mp h0
  obtain ⟨l, h5⟩ := void_ok.mp h4
  obtain ⟨a, q1, as, h1, h2, rfl⟩ := sep1_ok.mp h5
  have h1 : sdBlock total q = .ok a q1 := h1
  obtain ⟨b, D, cs, rfl, hb, hD⟩ := sdBlock_exact hN (by simp at hx; omega) h1
  have hw' : ∀ x, NSpace ('/' :: '-' :: x) w := fun x => hw.swapH (by simp) (by rintro _ ⟨⟩)
  have h3 : SepMore (sdBlock total) nodeSpace1 q1 as r := sepMore_inv (sdBlock_sfx total) h2
  rcases sdBlocks_exact hN (by simp at hx; omega) h3 with rfl | ⟨w', T, rfl, hw2, hne', _, hT⟩
  · exact ⟨w, '/' :: '-' :: (b ++ '{' :: (D ++ ['}'])), by simp, hw' _, by simp, .blocksOne hb hD⟩
  · exact ⟨w, '/' :: '-' :: (b ++ '{' :: (D ++ '}' :: (w' ++ T))), by simp, hw' _, by simp, .blocksCons hb hD hw2 hne' hT⟩

omit [FloatIO] in
theorem term_exact {r t q : Str} (h : takeP (opt nodeTerminator) r = .ok t q) :
    (t = [] ∧ nodeTerminator r = .back) ∨ ∃ u x, nodeTerminator r = .ok u x ∧ r = t ++ x := by
  obtain ⟨e, o, h⟩ := takeP_ok.mp h
  rcases opt_ok.mp h with ⟨a, _, h9⟩ | ⟨_, rfl, h9⟩
  · have := Strict.nodeTerminator.sfx.taken h9
    rw [← e] at this
    exact Or.inr ⟨_, _, h9, this⟩
  · left
    exact ⟨by simpa [taken_self] using e, h9⟩

/-- A node that the parser accepts is in the grammar. -/
theorem baseNode_exact {total : Nat} {s r : Str} {n : Node} (hN : NodesOk total (s.length - 1))
    (hs : nodeSpace s = .back) (h : baseNode total s = .ok n r) : NodeSrc total s r n := by
  have hst := (baseNode_entry h hs).1
  rw [baseNode_unfold] at h
  obtain ⟨ty, s1, afterTy, s2, name, s3, es, s4, ch, s5, bt, t, s6, _, _, _, h1, h2, h3, h4, h5, h6,
    h7, rfl⟩ := baseNodeF_inv h
  obtain ⟨nt, hne, rfl, hnr, hnt, hend⟩ := identifier_exact h3
  obtain ⟨T, rfl, hT, hlast⟩ := entries_exact h4
  obtain ⟨h6, q6, h8⟩ := tailP_inv h6
  have hloop : ∀ u x, nodeSpace1 s4 = .ok u x → nodeEntry total s4 = .back := by
    intro u x hx
    have := rep0_stop h4
    rw [bind_eq (peek_eq hx)] at this
    exact this
  -- the annotation
  obtain ⟨tt, rfl, hty⟩ : ∃ tt, s = tt ++ (nt ++ (T ++ s4)) ∧ ∀ f : NodeFmt,
      f.beforeTyName = (ty.map (·.1)).getD [] → f.afterTyName = (ty.map (·.2.2)).getD [] → f.afterTy = afterTy →
      TySrc nt (ty.map (·.2.1)) f tt := by
    rcases opt_ok.mp h1 with ⟨⟨b, i, a⟩, rfl, h1'⟩ | ⟨rfl, rfl, _⟩
    · obtain ⟨it, rfl, h9, h10, h11, h12⟩ := tyP_exact h1'
      obtain ⟨rfl, h13, _⟩ := takeSpace_inv h2
      exact ⟨'(' :: (b ++ (it ++ (a ++ ')' :: afterTy))), by simp,
        fun f e1 e2 e3 => Or.inr ⟨i, it, rfl, h9, h10, by rw [e1]; exact h11, by rw [e2]; exact h12,
          by rw [e3]; exact h13.cut hne, by rw [e1, e2, e3]; rfl⟩⟩
    · obtain ⟨rfl, h13, h14⟩ := takeSpace_inv h2
      have := nodeSpace0_none hs h13 h14
      subst this
      exact ⟨[], rfl, fun _ _ _ _ => Or.inl ⟨rfl, rfl⟩⟩
  have hlen : s4.length ≤ (tt ++ (nt ++ (T ++ s4))).length - 1 := by
    have := List.length_pos_iff.mpr hne
    simp; omega
  have hblk : BlocksOk total s4.length := blocksOk fun x y d hx => hN x y d (by omega)
  have hstB : ∀ z, Starts (tt ++ (nt ++ z)) := by
    intro z
    rcases hty ⟨[], _, _, _, [], [], [], []⟩ rfl rfl rfl with ⟨_, rfl⟩ | ⟨i, it, _, _, _, _, _, _, rfl⟩
    · exact (StrTok.text hnt).starts.append _
    · exact ⟨_, _, rfl, by simp [Start]⟩
  cases ch with
  | none =>
    have hs45 : s5 = s4 := by
      rcases opt_ok.mp h5 with ⟨_, h, _⟩ | ⟨_, h, _⟩
      · cases h
      · exact h
    subst hs45
    simp only [Option.isSome_none, tailText, Bool.false_eq_true, if_false] at h6
    obtain ⟨rfl, u, h6'⟩ := takeP_inv (Sfx.beforeNodeChildrenF total (Strict.baseNode total)) h6
    obtain rfl : r = s6 := beforeNodeChildrenF_again h6' h7
    obtain ⟨w, e, hr, hm, hk⟩ := mid_exact hblk h6'
    have := List.append_cancel_right e
    subst this
    refine ⟨tt ++ (nt ++ (T ++ bt)), by simp, hstB _, .leaf (hty _ rfl rfl rfl) hnr hnt hT hm rfl rfl, hr, ?_,
      (term_exact h8).imp_left fun h => ⟨h.1, Or.inl h.2⟩⟩
    rcases hk with hk | rfl | ⟨⟨x, hx⟩, hk⟩
    · exact Or.inl (.leaf (hty _ rfl rfl rfl) hnr hnt hT hk rfl rfl)
    · rcases hlast with rfl | hlast | ⟨es', e, w', t', T', f', rfl, rfl, g1, g2, g3, g4, g5, g6⟩
      · cases hT
        exact Or.inr (Stuck.ends (by simpa using hend) hr)
      · exact Or.inr (Stuck.ends (by simpa using hlast) hr)
      · left
        simp only [List.append_nil, List.append_assoc]
        exact .leafKeyword (hty _ rfl rfl rfl) hnr hnt g1 g2 g3 g4 g5 g6 rfl rfl
    · exact Or.inr (hk (hloop _ _ hx))
  | some x =>
    obtain ⟨bc, d⟩ := x
    obtain ⟨x, hx, h5⟩ : ∃ x, some (bc, d) = some x ∧ _ := by
      rcases opt_ok.mp h5 with h | ⟨hx, _⟩
      · exact h
      · cases hx
    cases hx
    simp only [bind_ok, pure_ok] at h5
    obtain ⟨_, q1, h10, _, _, h11, h12, rfl⟩ := h5
    simp only [Prod.mk.injEq] at h12
    obtain ⟨rfl, rfl⟩ := h12
    obtain ⟨rfl, u, h10'⟩ := takeP_inv (Sfx.beforeNodeChildrenF total (Strict.baseNode total)) h10
    obtain ⟨w, e, _, hm, _⟩ := mid_exact hblk h10'
    have := List.append_cancel_right e
    subst this
    obtain ⟨q2, rfl, h13⟩ := nodeChildrenF_inv h11
    obtain ⟨D, rfl, hD⟩ := hN _ _ _ (by simp at hlen ⊢; omega) h13
    simp only [Option.isSome_some, tailText, if_true] at h6
    have hsd : Sfx (slashdashedChildrenF total (baseNode total)) := (Strict.slashdashedChildrenF total (Strict.baseNode total)).sfx
    obtain ⟨rfl, o, h6'⟩ := takeP_inv hsd.opt h6
    obtain ⟨v, rfl, hv, hr⟩ := nodeSpace0_iff.mp h7
    have htail : TailSrc bt := by
      rcases opt_ok.mp h6' with ⟨_, _, h14⟩ | ⟨_, h14, _⟩
      · obtain ⟨w', C, e, hw', _, hC⟩ := hblk _ _ _ (by simp; omega) h14
        have e' : bt ++ (v ++ r) = (w' ++ C) ++ (v ++ r) := by rw [e]; simp
        exact Or.inr ⟨w', C, List.append_cancel_right e', hw', hC⟩
      · exact Or.inl (nil_of_self h14)
    have hterm : (t = [] ∧ (nodeTerminator r = .back ∨ (some d).isSome = true)) ∨ ∃ u x, nodeTerminator r = .ok u x ∧ r = t ++ x := by
      rcases term_exact h8 with h | ⟨u, x, h9, h10⟩
      · exact Or.inl ⟨h.1, Or.inr rfl⟩
      · have h14 := nodeSpace_back_of_terminator h9
        have := nodeSpace0_none h14 hv hr
        subst this
        exact Or.inr ⟨u, x, h9, h10⟩
    have tree : ∀ k span, Tree (.node k (mkNode ty afterTy name es (some (bc, d)) bt t span)) r
        (tt ++ (nt ++ (T ++ (bc ++ '{' :: (D ++ '}' :: (bt ++ v)))))) := fun k span =>
      Tree.block (u := v) (hty _ rfl rfl rfl) hnr hnt hT (hm.brace (Or.inl rfl)) rfl (by simpa using hD) htail hv rfl rfl
    refine ⟨tt ++ (nt ++ (T ++ (bc ++ '{' :: (D ++ '}' :: (bt ++ v))))), by simp, hstB _, tree false _, hr, Or.inl (tree true _), hterm⟩

end

end Kdl
