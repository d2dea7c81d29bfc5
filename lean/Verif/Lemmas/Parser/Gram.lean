import Verif.Spec.Grammar
import Verif.Lemmas.Parser.Lines
import Verif.Lemmas.Parser.ValText
import Verif.Lemmas.Parser.PrintDoc
import Verif.Spec.Build
/-
Texts of the grammar are read with the data they stand for.
-/

namespace Kdl
open Spec

section
variable [FloatIO]

/-! ### Entries -/

theorem Spec.StrText.ne {t v : Str} (h : StrText t v) : t ≠ [] := by
  obtain ⟨c, q, rfl, _⟩ := (StrTok.text h).head
  simp

theorem Spec.ValText.ne {t : Str} {v : Value} (h : ValText t v) : t ≠ [] := by
  obtain ⟨c, q, rfl, _⟩ := (ValTok.text h).1
  simp

theorem TyTok.text {nx t : Str} {ty : Option Str} (h : TyText nx ty t) (hne : nx ≠ []) : TyTok ty t := by
  cases h with
  | none => exact .none
  | some hi hb ha hf => exact .some (StrTok.text hi) (hb.sp hi.ne) (ha.sp (by simp)) (hf.sp hne)

theorem ValueTok.text {ty : Option Str} {tt vt : Str} {v : Value} (ht : TyText vt ty tt) (hv : ValText vt v) :
    ValueTok id ⟨ty, none, v⟩ (tt ++ vt) := by
  cases ht with
  | none => exact (ValTok.text hv).value
  | some hi hb ha hf =>
    have := (ValTok.text hv).typed (g := id) (StrTok.text hi) (hb.sp hi.ne) (ha.sp (by simp)) (hf.sp hv.ne)
    simpa using this

theorem Spec.ValEnd.text {k : Bool} {t : Str} {v : Value} (h : ValEnd k t v) : ValText t v := by
  cases k with
  | false => exact h
  | true => exact .keyword h

theorem keyword_tok {t : Str} {v : Value} (h : (t, v) ∈ keywords) (r : Str) :
    valueBody (t ++ r) = .ok v r ∧ stringP (t ++ r) = .back ∧ ∀ q, t ++ r ≠ '(' :: q := by
  refine ⟨alt_left (keyword_eq h r), ?_, ?_⟩
  · obtain ⟨c, q, rfl, h1, h2⟩ := keywords_head h
    exact stringP_hash h1 h2
  · obtain ⟨c, q, rfl, _⟩ := keywords_head h
    rintro _ ⟨⟩

/-- A value with its type annotation, in front of `r`. -/
theorem value_at {ty : Option Str} {tt vt r : Str} {v : Value} (ht : TyText vt ty tt) (hs : Starts vt)
    (hp : ∀ q, vt ++ r ≠ '(' :: q) (hv : valueBody (vt ++ r) = .ok v r) (total : Nat) :
    ∃ e, value total (tt ++ (vt ++ r)) = .ok e r ∧ semEntry id e = ⟨ty, none, v⟩ := by
  cases ht with
  | none => exact ⟨_, value_eq hp hv, rfl⟩
  | @some i it b a f hi hb ha hf =>
    have hne : vt ≠ [] := by
      obtain ⟨c, q, rfl, _⟩ := hs
      simp
    obtain ⟨id, h1, h2⟩ := tyP_tok (StrTok.text hi) (hb.sp hi.ne) (ha.sp (by simp)) total (f ++ (vt ++ r))
    unfold Kdl.value
    simp only [List.cons_append, List.append_assoc] at h1 ⊢
    rw [bind_here, bind_eq (opt_some (by rw [bind_eq h1, bind_eq ((hf.sp hne).take (hs.append r).solid)]; rfl)),
      bind_here, bind_eq hv, bind_here]
    exact ⟨_, rfl, by simp [semEntry, h2]⟩

/-- An entry that ends with a keyword is read whatever follows it. -/
theorem Spec.EntryEnd.keyword {d : SEntry Value} {t : Str} (h : EntryEnd true d t) (total : Nat) (r : Str) :
    ∃ e, entryBody total (t ++ r) = .ok e r ∧ semEntry id e = d := by
  cases h with
  | @arg ty tt vt v ht hv =>
    obtain ⟨k1, k2, k3⟩ := keyword_tok hv r
    have hs := (ValTok.text hv.text).1
    obtain ⟨e, h1, h2⟩ := value_at ht hs k3 k1 total
    refine ⟨e, ?_, h2⟩
    rw [List.append_assoc, entryBody_value]
    · exact h1
    · cases ht with
      | none => exact k2
      | some =>
        apply stringP_back
        · rintro c q e
          rw [← (List.cons.inj e).1]
          decide
        · rintro q e
          exact absurd (List.cons.inj e).1 (by decide)
        · rintro q e
          exact absurd (List.cons.inj e).1 (by decide)
  | @prop ty kn kt ak ae tt vt v hk p1 p2 ht hv =>
    obtain ⟨k1, k2, k3⟩ := keyword_tok hv r
    have hs := (ValTok.text hv.text).1
    have hs' : Starts (tt ++ vt) := (TyTok.text ht hv.text.ne).starts hs
    have hne : tt ++ vt ≠ [] := by
      have := hv.text.ne
      simp [this]
    obtain ⟨e, h1, h2⟩ := value_at ht hs k3 k1 total
    have e1 := solid_lit (c := '=') (by simp) (ae ++ (tt ++ (vt ++ r)))
    have e2 := ends_lit (c := '=') (by simp) (ae ++ (tt ++ (vt ++ r)))
    have hak := p1.sp (by simp)
    have he : Ends (ak ++ '=' :: (ae ++ (tt ++ (vt ++ r)))) := (hak _ e1).ends fun _ => e2
    have e3 : equalsSign ('=' :: (ae ++ (tt ++ (vt ++ r)))) = .ok () (ae ++ (tt ++ (vt ++ r))) := lit_one _ _
    have hst : Starts (tt ++ (vt ++ r)) := by
      have := hs'.append r
      rwa [List.append_assoc] at this
    unfold entryBody
    simp only [List.append_assoc, List.cons_append]
    rw [bind_eq (opt_some (identifier_eq (StrTok.text hk _ he)))]
    simp only
    rw [bind_eq (opt_some (by rw [bind_eq (hak.take e1), bind_eq e3]; rfl))]
    simp only
    rw [bind_eq ((p2.sp hne).take hst.solid), bind_eq (cutErr_eq h1)]
    refine ⟨_, rfl, ?_⟩
    simp only [semEntry, SEntry.mk.injEq] at h2 ⊢
    exact ⟨h2.1, rfl, h2.2.2⟩

theorem Spec.EntryEnd.entry {k : Bool} {d : SEntry Value} {t : Str} (h : EntryEnd k d t) : EntryText d t := by
  cases h with
  | arg ht hv => exact .arg ht hv.text
  | prop hk p1 p2 ht hv => exact .prop hk p1 p2 ht hv.text

/-- Entries are read with their data. -/
theorem EntTok.text {d : SEntry Value} {t : Str} (h : EntryText d t) : EntTok id d t := by
  cases h with
  | arg ht hv =>
    have h0 := ValueTok.text ht hv
    cases ht with
    | none => exact EntTok.val (ValTok.text hv)
    | some => exact ValueTok.typedEntry h0
  | prop hk h1 h2 ht hv =>
    refine ValueTok.prop (ValueTok.text ht hv) (StrTok.text hk) (h1.sp (by simp)) (h2.sp ?_)
    have := hv.ne
    simp [this]

/-- What may follow an entry; anything, if it ends with a keyword. -/
def After (k : Bool) (r : Str) : Prop := k = true ∨ AfterEntry r

theorem Spec.EntryEnd.reads {k : Bool} {d : SEntry Value} {t r : Str} (h : EntryEnd k d t) (hr : After k r) (total : Nat) :
    ∃ e, entryBody total (t ++ r) = .ok e r ∧ semEntry id e = d := by
  rcases hr with rfl | hr
  · exact h.keyword total r
  · exact (EntTok.text h.entry).2 total r hr

/-! ### Slashdashed entries -/

/-- A slashdash and an entry. -/
def sdEntry (total : Nat) : P Entry := do slashdash; nodeEntry total

theorem sdEntry_sfx (total : Nat) : Sfx (sdEntry total) := by
  unfold sdEntry
  psolve

omit [FloatIO] in
/-- Starts with a slashdash. -/
def Slash (S : Str) : Prop := ∃ q, S = '/' :: '-' :: q

omit [FloatIO] in
theorem Slash.append {S : Str} (h : Slash S) (r : Str) : Slash (S ++ r) := by
  obtain ⟨q, rfl⟩ := h
  exact ⟨_, rfl⟩

omit [FloatIO] in
theorem Slash.nodeSpace {S : Str} (h : Slash S) : nodeSpace S = .back := by
  obtain ⟨q, rfl⟩ := h
  exact (slash_facts (by decide) _).1

omit [FloatIO] in
theorem Slash.lineSpace {S : Str} (h : Slash S) : lineSpace S = .back := by
  obtain ⟨q, rfl⟩ := h
  have f := slash_facts (c := '-') (by decide) q
  refine lineSpace_back_iff.mpr ⟨f.1, f.2, singleLineComment_back ?_⟩
  intro q e
  exact absurd (List.cons.inj (List.cons.inj e).2).1 (by decide)

omit [FloatIO] in
theorem Slash.notNl {S : Str} (h : Slash S) (q : Str) : S ≠ '\n' :: q := by
  obtain ⟨q, rfl⟩ := h
  intro e
  exact absurd (List.cons.inj e).1 (by decide)

omit [FloatIO] in
theorem Slash.ne {S : Str} (h : Slash S) : S ≠ [] := by
  obtain ⟨q, rfl⟩ := h
  simp

theorem Slash.entryBody {S : Str} (h : Slash S) (total : Nat) : entryBody total S = .back := by
  obtain ⟨q, rfl⟩ := h
  exact entryBody_back (by rintro _ _ ⟨⟩; decide) (by rintro _ ⟨⟩) (by rintro _ ⟨⟩) (by rintro _ ⟨⟩)

omit [FloatIO] in
theorem Spec.NSpace.slash {S w r : Str} (h : NSpace S w) (hS : Slash S) : Space0 w (S ++ r) :=
  (h.swap hS.ne (hS.append r).notNl).space0 (hS.append r).nodeSpace

omit [FloatIO] in
theorem Spec.SdEnd.slash [FloatIO] {k : Bool} {S : Str} (h : SdEnd k S) : Slash S := by
  cases h <;> exact ⟨_, rfl⟩

/-- Slashdashed entries are read, and then whatever follows them. -/
def SdRun (k : Bool) (S : Str) : Prop := ∀ total r xs r', After k r → SepMore (sdEntry total) nodeSpace1 r xs r' →
  ∃ x q ys, sdEntry total (S ++ r) = .ok x q ∧ SepMore (sdEntry total) nodeSpace1 q ys r'

omit [FloatIO] in
theorem afterEntry_space {w r : Str} (h : Space0 w r) (hne : w ≠ []) (hr : ∀ q, r ≠ '=' :: q) : AfterEntry (w ++ r) := by
  obtain ⟨q, h1, _⟩ := h.space1 hne
  exact ⟨ends_of_space h1, r, h, hr⟩

theorem Starts.sdEntry {r : Str} (h : Starts r) (total : Nat) : sdEntry total r = .back := bind_back h.solid.slashdash

omit [FloatIO] in
theorem Starts.notEq {r : Str} (h : Starts r) (q : Str) : r ≠ '=' :: q := by
  obtain ⟨c, q', rfl, hc⟩ := h
  intro e
  exact hc.facts.2.2.2.2.2.1 (List.cons.inj e).1

omit [FloatIO] in
theorem Slash.notEq {r : Str} (h : Slash r) (q : Str) : r ≠ '=' :: q := by
  obtain ⟨q', rfl⟩ := h
  intro e
  exact absurd (List.cons.inj e).1 (by decide)

omit [FloatIO] in
theorem len_lt {w r : Str} (h : w ≠ []) : r.length < (w ++ r).length := by
  have := List.length_pos_iff.mpr h
  simp only [List.length_append]; omega

/-- Slashdashed entries, space and then no slashdashed entry. -/
theorem SdRun.take {k : Bool} {S w R : Str} (hS : SdRun k S) (hw : Space0 w R) (hne : w ≠ []) (hR : ∀ q, R ≠ '=' :: q) (total : Nat)
    (hb : sdEntry total R = .back) : slashdashedEntries total (S ++ (w ++ R)) = .ok () (w ++ R) := by
  obtain ⟨q, h1, h2, h3⟩ := hw.space1 hne
  obtain ⟨x, q, ys, h4, h5⟩ := hS total (w ++ R) [] (w ++ R) (Or.inr (afterEntry_space hw hne hR)) (.stop h3 (len_lt hne) hb)
  exact void_eq (sep1_ok.mpr ⟨x, q, ys, h4, sepMore_of (sdEntry_sfx total) h5, rfl⟩)

/-- What precedes an entry, with slashdashed entries. -/
theorem entryLeading_slash {k : Bool} {g S w R : Str} (hg : Space0 g (S ++ (w ++ R))) (hS : SdRun k S) (hw : Space0 w R) (hne : w ≠ [])
    (hR : ∀ q, R ≠ '=' :: q) (total : Nat) (hb : sdEntry total R = .back) :
    entryLeadingF (nodeEntry total) (g ++ (S ++ (w ++ R))) = .ok (g ++ (S ++ w)) R := by
  obtain ⟨q, h1, h2, h3⟩ := hw.space1 hne
  have e : g ++ (S ++ (w ++ R)) = (g ++ (S ++ w)) ++ R := by simp
  unfold entryLeadingF
  rw [e]
  apply takeP_eq (a := some ())
  rw [← e, bind_eq hg]
  apply opt_some
  have h4 : slashdashedEntriesF (nodeEntry total) (S ++ (w ++ R)) = .ok () (w ++ R) := hS.take hw hne hR total hb
  rw [bind_eq h4]
  exact h3

theorem Spec.SdEnd.run {k : Bool} {S : Str} (h : SdEnd k S) : SdRun k S := by
  -- a plain entry after the slashdash
  have one : ∀ {k : Bool} {b E r : Str} {d : SEntry Value} (total : Nat), LSpace E b → EntryEnd k d E → After k r →
      ∃ x, sdEntry total ('/' :: '-' :: (b ++ (E ++ r))) = .ok x r := by
    intro k b E r d total hb hE hr
    have hT := EntTok.text hE.entry
    have hs := hT.1.append r
    have hne : E ≠ [] := by
      obtain ⟨c, q, rfl, _⟩ := hT.1
      simp
    have e1 := slashdash_eq (hb.swap hne hs.solid.notNl) hs.solid.lineSpace
    obtain ⟨e, h1, _⟩ := hE.reads hr total
    obtain ⟨e', h2, _⟩ := entryLeading_nodeEntry (w := []) (hs.solid.entryLeading) h1
    refine ⟨e', ?_⟩
    unfold sdEntry
    rw [bind_eq e1]
    exact h2
  -- an entry with slashdashed entries in front
  have nest : ∀ {k : Bool} {b S w E r : Str} {d : SEntry Value} (total : Nat), LSpace S b → SdEntries S → SdRun false S →
      NSpace E w → w ≠ [] → EntryEnd k d E → After k r → ∃ x, sdEntry total ('/' :: '-' :: (b ++ (S ++ (w ++ (E ++ r))))) = .ok x r := by
    intro k b S w E r d total hb hS ih hw hne hE hr
    have hT := EntTok.text hE.entry
    have hs := hT.1.append r
    have hne' : E ≠ [] := by
      obtain ⟨c, q, rfl, _⟩ := hT.1
      simp
    have hsl := hS.slash.append (w ++ (E ++ r))
    have e1 := slashdash_eq (hb.swap hS.slash.ne hsl.notNl) hsl.lineSpace
    have hw0 : Space0 w (E ++ r) := (hw.sp hne') _ hs.solid
    have e2 := entryLeading_slash (g := []) (WSp.nil _ hsl.nodeSpace) ih hw0 hne hs.notEq total (hs.sdEntry total)
    obtain ⟨e, h1, _⟩ := hE.reads hr total
    have e3 : S ++ (w ++ (E ++ r)) = (S ++ w) ++ (E ++ r) := by simp
    rw [List.nil_append, List.nil_append, e3] at e2
    obtain ⟨e', h2, _⟩ := entryLeading_nodeEntry e2 h1
    refine ⟨e', ?_⟩
    unfold sdEntry
    rw [bind_eq e1, e3]
    exact h2
  induction h with
  | one hb hE =>
    intro total r xs r' hr hm
    obtain ⟨x, hx⟩ := one total hb hE hr
    exact ⟨x, r, xs, by simpa using hx, hm⟩
  | nest hb hS hw hne hE ih =>
    intro total r xs r' hr hm
    obtain ⟨x, hx⟩ := nest total hb hS ih hw hne hE hr
    exact ⟨x, r, xs, by simpa using hx, hm⟩
  | @cons k b E w T d hb hE hw hne hT ih =>
    intro total r xs r' hr hm
    have hw0 := hw.slash hT.slash (r := r)
    obtain ⟨x, hx⟩ := one total hb hE (Or.inr (afterEntry_space hw0 hne (hT.slash.append r).notEq))
    obtain ⟨_, _, _, h3⟩ := hw0.space1 hne
    obtain ⟨y, q, ys, h4, h5⟩ := ih total r xs r' hr hm
    exact ⟨x, _, _, by simpa using hx, .cons h3 (len_lt hne) h4 h5⟩
  | @nestCons k b S v E w T d hb hS hv hne' hE hw hne hT ihS ihT =>
    intro total r xs r' hr hm
    have hw0 := hw.slash hT.slash (r := r)
    obtain ⟨x, hx⟩ := nest total hb hS ihS hv hne' hE (Or.inr (afterEntry_space hw0 hne (hT.slash.append r).notEq))
    obtain ⟨_, _, _, h3⟩ := hw0.space1 hne
    obtain ⟨y, q, ys, h4, h5⟩ := ihT total r xs r' hr hm
    exact ⟨x, _, _, by simpa using hx, .cons h3 (len_lt hne) h4 h5⟩

/-! ### Entries of a node -/

theorem ELead.text {t w : Str} (h : EntryLead t w) (ht : Starts t) : ELead w := by
  have hne : t ≠ [] := by
    obtain ⟨c, q, rfl, _⟩ := ht
    simp
  cases h with
  | space h hw => exact ELead.space (h.sp hne) hw
  | @slash w S v hw hwne hS hv hvne =>
    intro total r hr
    have hsl := hS.slash.append (v ++ r)
    have hg := hw.slash hS.slash (r := v ++ r)
    have h1 := entryLeading_slash hg hS.run (hv.sp hne r hr.solid) hvne hr.notEq total (hr.sdEntry total)
    obtain ⟨_, _, _, h2⟩ := hg.space1 hwne
    have e : (w ++ (S ++ v)) ++ r = w ++ (S ++ (v ++ r)) := by simp
    rw [e]
    exact ⟨⟨_, h2⟩, h1, afterEntry_space hg hwne hsl.notEq⟩

theorem EntsTok.text {ds : List (SEntry Value)} {T : Str} (h : EntriesText ds T) : EntsTok id ds T := by
  induction h with
  | nil => exact .nil
  | cons hw ht _ ih =>
    have := EntTok.text ht
    exact .cons (ELead.text hw this.1) this ih

/-! ### Slashdashed children blocks -/

/-- A slashdash and a children block. -/
def sdBlock (total : Nat) : P Unit := do slashdash; void (nodeChildrenF total (baseNode total))

theorem sdBlock_sfx (total : Nat) : Sfx (sdBlock total) := by
  unfold sdBlock
  exact Sfx.bind (by psolve) fun _ => Sfx.void (Strict.nodeChildrenF total (Strict.baseNode total)).sfx

/-- Slashdashed children blocks are read, and then whatever follows them. -/
def BlocksRun (C : Str) : Prop := Slash C ∧ (∀ total r, sdEntry total (C ++ r) = .back) ∧
  ∀ total r xs r', SepMore (sdBlock total) nodeSpace1 r xs r' →
  ∃ q ys, sdBlock total (C ++ r) = .ok () q ∧ SepMore (sdBlock total) nodeSpace1 q ys r'

/-- `D` is read as nodes, in front of `r`. -/
def NodesAt (ds : List (SNode Value)) (r D : Str) : Prop :=
  ∀ total, ∃ d, nodesF total (baseNode total) (D ++ r) = .ok d r ∧ semDoc id d = ds

theorem brace_sdEntry {b x : Str} (hb : LSpace ['{'] b) (total : Nat) :
    sdEntry total ('/' :: '-' :: (b ++ '{' :: x)) = .back := by
  have hs := solid_lit (c := '{') (by simp) x
  unfold sdEntry
  rw [bind_eq (slashdash_eq (hb.swap (by simp) hs.notNl) hs.lineSpace)]
  rw [nodeEntry_solid hs]
  apply bind_back
  exact entryBody_back (by rintro _ _ ⟨⟩; decide) (by rintro _ ⟨⟩) (by rintro _ ⟨⟩) (by rintro _ ⟨⟩)

theorem sdBlock_eq {b D x : Str} {cs : List (SNode Value)} (hb : LSpace ['{'] b) (hD : NodesAt cs ('}' :: x) D) (total : Nat) :
    sdBlock total ('/' :: '-' :: (b ++ '{' :: (D ++ '}' :: x))) = .ok () x := by
  have hs := solid_lit (c := '{') (by simp) (D ++ '}' :: x)
  obtain ⟨d, h1, _⟩ := hD total
  unfold sdBlock
  rw [bind_eq (slashdash_eq (hb.swap (by simp) hs.notNl) hs.lineSpace)]
  refine void_eq (a := d) ?_
  unfold nodeChildrenF
  rw [bind_eq (lit_one _ _), bind_eq h1, bind_eq (cutErr_eq (lit_one _ _))]
  rfl

theorem BlocksRun.one {b D : Str} {cs : List (SNode Value)} (hb : LSpace ['{'] b) (hD : ∀ x, NodesAt cs ('}' :: x) D) :
    BlocksRun ('/' :: '-' :: (b ++ '{' :: (D ++ ['}']))) := by
  refine ⟨⟨_, rfl⟩, fun total r => ?_, fun total r xs r' hm => ⟨r, xs, ?_, hm⟩⟩
  · have := brace_sdEntry (x := D ++ '}' :: r) hb total
    simpa using this
  · have := sdBlock_eq hb (hD r) total
    simpa using this

theorem BlocksRun.cons {b D w T : Str} {cs : List (SNode Value)} (hb : LSpace ['{'] b) (hD : ∀ x, NodesAt cs ('}' :: x) D)
    (hw : NSpace T w) (hne : w ≠ []) (hT : BlocksRun T) :
    BlocksRun ('/' :: '-' :: (b ++ '{' :: (D ++ '}' :: (w ++ T)))) := by
  refine ⟨⟨_, rfl⟩, fun total r => ?_, fun total r xs r' hm => ?_⟩
  · have := brace_sdEntry (x := D ++ '}' :: (w ++ (T ++ r))) hb total
    simpa using this
  · have h1 := sdBlock_eq hb (hD (w ++ (T ++ r))) total
    obtain ⟨q, ys, h2, h3⟩ := hT.2.2 total r xs r' hm
    obtain ⟨_, _, _, h4⟩ := (hw.slash hT.1 (r := r)).space1 hne
    exact ⟨_, _, by simpa using h1, .cons h4 (len_lt hne) h2 h3⟩

theorem Wall.sdBlock {r : Str} (h : Wall r) (total : Nat) : sdBlock total r = .back := bind_back h.slashdash

theorem Wall.sdEntry {r : Str} (h : Wall r) (total : Nat) : sdEntry total r = .back := bind_back h.slashdash

/-- Slashdashed blocks up to where there is none. -/
theorem BlocksRun.take {C v r : Str} (h : BlocksRun C) (hv : Space0 v r) (hn : nodeSpace r = .back) (total : Nat)
    (hb : v ≠ [] → sdBlock total r = .back) :
    slashdashedChildrenF total (baseNode total) (C ++ (v ++ r)) = .ok () (v ++ r) := by
  have hs : SepMore (Kdl.sdBlock total) nodeSpace1 (v ++ r) [] (v ++ r) := by
    by_cases hv' : v = []
    · subst hv'
      exact .nil (void_back (rep1_back hn))
    · obtain ⟨_, _, _, h3⟩ := hv.space1 hv'
      exact .stop h3 (len_lt hv') (hb hv')
  obtain ⟨q, ys, h1, h2⟩ := h.2.2 total (v ++ r) [] (v ++ r) hs
  unfold slashdashedChildrenF
  have h0 : nodeSpace0 (C ++ (v ++ r)) = .ok () (C ++ (v ++ r)) := WSp.nil _ (h.1.append _).nodeSpace
  rw [bind_eq h0]
  exact void_eq (sep1_ok.mpr ⟨(), q, ys, h1, sepMore_of (sdBlock_sfx total) h2, rfl⟩)

/-! ### What follows the entries -/

theorem Space0.noEntry {w R : Str} (h : Space0 w R) (hne : w ≠ []) (hR : ∀ q, R ≠ '=' :: q)
    (hb : ∀ total, ∃ l R', entryLeadingF (nodeEntry total) (w ++ R) = .ok l R' ∧ Kdl.entryBody total R' = .back) :
    NoEntry (w ++ R) := by
  refine ⟨afterEntry_space h hne hR, fun total => ?_⟩
  obtain ⟨_, _, _, h3⟩ := h.space1 hne
  obtain ⟨l, R', h4, h5⟩ := hb total
  rw [bind_eq (peek_eq h3), nodeEntry_unfold]
  unfold nodeEntryF
  rw [bind_eq h4, bind_here]
  exact bind_back h5

theorem SdRun.lead {k : Bool} {S w v r : Str} (hS : SdRun k S) (hsl : Slash S) (hw : Space0 w (S ++ (v ++ r))) (hv : Space0 v r)
    (hR : ∀ q, r ≠ '=' :: q) (he : k = true ∨ Ends r) (hb : ∀ total, sdEntry total r = .back) (hbody : ∀ total, entryBody total r = .back)
    (total : Nat) :
    ∃ l R', entryLeadingF (nodeEntry total) (w ++ (S ++ (v ++ r))) = .ok l R' ∧ entryBody total R' = .back := by
  by_cases hne : v = []
  · subst hne
    refine ⟨w, S ++ ([] ++ r), ?_, (hsl.append _).entryBody total⟩
    unfold entryLeadingF
    apply takeP_eq (a := none)
    rw [bind_eq hw]
    apply opt_none
    have hn : nodeSpace r = .back := by
      obtain ⟨l, hl⟩ := void_ok.mp hv
      exact rep0_stop hl
    have hn1 : nodeSpace1 r = .back := void_back (rep1_back hn)
    have ha : After k r := he.imp id fun he => ⟨he, r, hv, hR⟩
    obtain ⟨x, q, ys, h4, h5⟩ := hS total r [] r ha (.nil hn1)
    have : slashdashedEntriesF (nodeEntry total) (S ++ ([] ++ r)) = .ok () r :=
      void_eq (sep1_ok.mpr ⟨x, q, ys, h4, sepMore_of (sdEntry_sfx total) h5, rfl⟩)
    rw [bind_eq this]
    exact hn1
  · exact ⟨_, _, entryLeading_slash hw hS hv hne hR total (hb total), hbody total⟩

theorem Wall.notEq {r : Str} (h : Wall r) (q : Str) : r ≠ '=' :: q := fun e => (h.facts e).2.2.1 rfl

theorem SdRun.all {S v r : Str} (hS : SdRun false S) (hv : Space0 v r) (hr : Wall r) (total : Nat) :
    slashdashedEntries total (S ++ (v ++ r)) = .ok () (v ++ r) := by
  by_cases hne : v = []
  · subst hne
    have hn1 : nodeSpace1 r = .back := void_back (rep1_back hr.nodeSpace)
    obtain ⟨x, q, ys, h4, h5⟩ := hS total r [] r (Or.inr ⟨hr.ends, r, hv, hr.notEq⟩) (.nil hn1)
    exact void_eq (sep1_ok.mpr ⟨x, q, ys, h4, sepMore_of (sdEntry_sfx total) h5, rfl⟩)
  · exact hS.take hv hne hr.notEq total (hr.sdEntry total)

theorem Mid.entries {w S v r : Str} (h1 : NSpace S w) (hne : w ≠ []) (h2 : SdEntries S) (h3 : NSpace r v) (hr : Wall r) :
    Mid (w ++ (S ++ v)) r := by
  have hw := h1.slash h2.slash (r := v ++ r)
  have hv := h3.space0 hr.nodeSpace
  have e : (w ++ (S ++ v)) ++ r = w ++ (S ++ (v ++ r)) := by simp
  unfold Mid
  rw [e]
  refine ⟨hw.noEntry hne (h2.slash.append _).notEq
    (h2.run.lead h2.slash hw hv hr.notEq (Or.inr hr.ends) hr.sdEntry hr.entryBody), fun total => ?_⟩
  obtain ⟨_, _, _, h4⟩ := hw.space1 hne
  have h5 := h2.run.all hv hr total
  unfold beforeNodeChildrenF
  rw [bind_eq (a := ()) (r := v ++ r)]
  · exact hv
  · rw [alt_right]
    · apply alt_left
      rw [bind_eq h4]
      exact h5
    · rw [bind_eq h4, bind_eq h5]
      by_cases hne : v = []
      · subst hne
        exact bind_back (void_back (rep1_back hr.nodeSpace))
      · obtain ⟨_, _, _, h6⟩ := hv.space1 hne
        rw [bind_eq h6]
        exact hr.slashdashedChildren total _

theorem Mid.blocks {w C v r : Str} (h1 : NSpace C w) (hne : w ≠ []) (h2 : BlocksRun C) (h3 : NSpace r v) (hn : nodeSpace r = .back)
    (hsb : v ≠ [] → ∀ total, sdBlock total r = .back) : Mid (w ++ (C ++ v)) r := by
  have hw := h1.slash h2.1 (r := v ++ r)
  have hv := h3.space0 hn
  have e : (w ++ (C ++ v)) ++ r = w ++ (C ++ (v ++ r)) := by simp
  have hb : ∀ total, slashdashedEntries total (C ++ (v ++ r)) = .back := fun total =>
    void_back (sep1_back (h2.2.1 total _))
  unfold Mid
  rw [e]
  refine ⟨hw.noEntry hne (h2.1.append _).notEq fun total => ⟨w, C ++ (v ++ r), ?_, (h2.1.append _).entryBody total⟩,
    fun total => ?_⟩
  · unfold entryLeadingF
    apply takeP_eq (a := none)
    rw [bind_eq hw]
    exact opt_none (bind_back (hb total))
  · obtain ⟨_, _, _, h4⟩ := hw.space1 hne
    unfold beforeNodeChildrenF
    rw [bind_eq (a := ()) (r := v ++ r)]
    · exact hv
    · rw [alt_right (by rw [bind_eq h4]; exact bind_back (hb total)),
        alt_right (by rw [bind_eq h4]; exact hb total)]
      apply alt_left
      rw [bind_eq h4]
      exact h2.take hv hn total fun h => hsb h total

theorem Mid.both {w S u C v r : Str} (h1 : NSpace S w) (hne : w ≠ []) (h2 : SdEntries S) (h3 : NSpace C u) (hne' : u ≠ [])
    (h4 : BlocksRun C) (h5 : NSpace r v) (hn : nodeSpace r = .back) (hsb : v ≠ [] → ∀ total, sdBlock total r = .back) : Mid (w ++ (S ++ (u ++ (C ++ v)))) r := by
  have hw := h1.slash h2.slash (r := u ++ (C ++ (v ++ r)))
  have hu := h3.slash h4.1 (r := v ++ r)
  have hv := h5.space0 hn
  have e : (w ++ (S ++ (u ++ (C ++ v)))) ++ r = w ++ (S ++ (u ++ (C ++ (v ++ r)))) := by simp
  have hq := (h4.1.append (v ++ r)).notEq
  unfold Mid
  rw [e]
  refine ⟨hw.noEntry hne (h2.slash.append _).notEq fun total => ⟨_, _, entryLeading_slash hw h2.run hu hne' hq total
    (h4.2.1 total _), (h4.1.append _).entryBody total⟩, fun total => ?_⟩
  obtain ⟨_, _, _, h6⟩ := hw.space1 hne
  obtain ⟨_, _, _, h7⟩ := hu.space1 hne'
  unfold beforeNodeChildrenF
  rw [bind_eq (a := ()) (r := v ++ r)]
  · exact hv
  · apply alt_left
    rw [bind_eq h6, bind_eq (h2.run.take hu hne' hq total (h4.2.1 total _)), bind_eq h7]
    exact h4.take hv hn total fun h => hsb h total

theorem TailAt.blocks {w C v r : Str} (h1 : NSpace C w) (h2 : BlocksRun C) (h3 : NSpace r v) (hn : nodeSpace r = .back)
    (hsb : ∀ total, sdBlock total r = .back) (hr : ∃ t q, takeP (opt nodeTerminator) r = .ok t q) :
    TailAt (w ++ (C ++ v)) r := by
  intro total
  have hw := h1.slash h2.1 (r := v ++ r)
  have hv := h3.space0 hn
  have e : (w ++ (C ++ v)) ++ r = w ++ (C ++ (v ++ r)) := by simp
  have h4 : slashdashedChildrenF total (baseNode total) (w ++ (C ++ (v ++ r))) = .ok () (v ++ r) := by
    have := h2.take hv hn total fun _ => hsb total
    unfold slashdashedChildrenF at this ⊢
    have h0 : nodeSpace0 (C ++ (v ++ r)) = .ok () (C ++ (v ++ r)) := WSp.nil _ (h2.1.append _).nodeSpace
    have h0' : nodeSpace0 (w ++ (C ++ (v ++ r))) = .ok () (C ++ (v ++ r)) := hw
    rw [bind_eq h0] at this
    rw [bind_eq h0']
    exact this
  have h5 : tailText total (baseNode total) true ((w ++ (C ++ v)) ++ r) = .ok (w ++ C) (v ++ r) := by
    have e' : (w ++ (C ++ v)) ++ r = (w ++ C) ++ (v ++ r) := by simp
    unfold tailText
    rw [if_pos rfl, e']
    apply takeP_eq (a := some ())
    rw [← e', e]
    exact opt_some h4
  by_cases hne : v = []
  · subst hne
    obtain ⟨t, q', ht⟩ := hr
    exact ⟨_, _, _, _, h5, ht, hv⟩
  · obtain ⟨q, h6, _⟩ := hv.space1 hne
    exact ⟨_, _, _, _, h5, takeP_nil (opt_none (nodeTerminator_space h6)), hv⟩

/-- `w` is space between a closing brace and `r`. -/
theorem TailAt.nodeSpace {w r : Str} (h : Space0 w r) (hsb : ∀ total, sdBlock total r = .back)
    (hr : ∃ t q, takeP (opt nodeTerminator) r = .ok t q) : TailAt w r := by
  intro total
  have h1 : tailText total (baseNode total) true (w ++ r) = .ok [] (w ++ r) := by
    unfold tailText
    rw [if_pos rfl]
    apply takeP_nil (a := none)
    apply opt_none
    unfold slashdashedChildrenF
    rw [bind_eq h]
    exact void_back (sep1_back (hsb total))
  by_cases hw : w = []
  · subst hw
    obtain ⟨t, q', ht⟩ := hr
    exact ⟨_, _, _, _, h1, ht, h⟩
  · obtain ⟨q, h2, _⟩ := h.space1 hw
    exact ⟨_, _, _, _, h1, takeP_nil (opt_none (nodeTerminator_space h2)), h⟩

/-- Slashdashed entries that end with a keyword, in front of anything that is no space. -/
theorem Mid.keyword {w S r : Str} (h1 : NSpace S w) (hne : w ≠ []) (h2 : SdEnd true S) (hn : nodeSpace r = .back)
    (hR : ∀ q, r ≠ '=' :: q) : Mid (w ++ S) r := by
  have hw := h1.slash h2.slash (r := r)
  have hv : Space0 [] r := WSp.nil _ hn
  have hn1 : nodeSpace1 r = .back := void_back (rep1_back hn)
  have hall : ∀ total, slashdashedEntries total (S ++ r) = .ok () r := fun total => by
    obtain ⟨x, q, ys, h4, h5⟩ := h2.run total r [] r (Or.inl rfl) (.nil hn1)
    exact void_eq (sep1_ok.mpr ⟨x, q, ys, h4, sepMore_of (sdEntry_sfx total) h5, rfl⟩)
  unfold Mid
  rw [List.append_assoc]
  refine ⟨hw.noEntry hne (h2.slash.append _).notEq fun total => ⟨w, S ++ r, ?_, (h2.slash.append _).entryBody total⟩,
    fun total => ?_⟩
  · unfold entryLeadingF
    apply takeP_eq (a := none)
    rw [bind_eq hw]
    apply opt_none
    have : slashdashedEntriesF (nodeEntry total) (S ++ r) = .ok () r := hall total
    rw [bind_eq this]
    exact hn1
  · obtain ⟨_, _, _, h4⟩ := hw.space1 hne
    unfold beforeNodeChildrenF
    rw [bind_eq (a := ()) (r := r)]
    · exact hv
    · rw [alt_right (by rw [bind_eq h4, bind_eq (hall total)]; exact bind_back hn1)]
      apply alt_left
      rw [bind_eq h4]
      exact hall total

/-! ### Documents -/

omit [FloatIO] in
theorem Spec.LSpace.notSlash {w R : Str} (h : LSpace R w) (hne : w ≠ []) (q : Str) : w ++ R ≠ '/' :: '-' :: q := by
  cases h with
  | nil => exact absurd rfl hne
  | space h1 =>
    intro e
    have := (List.cons.inj e).1
    subst this
    revert h1; decide
  | comment => intro e; exact absurd (List.cons.inj (List.cons.inj e).2).1 (by decide)
  | cont => intro e; exact absurd (List.cons.inj e).1 (by decide)
  | newline hm =>
    obtain ⟨c, x, rfl, hc⟩ := hm.head
    intro e
    have := (List.cons.inj e).1
    subst this
    revert hc; decide
  | line hm =>
    obtain ⟨x, rfl⟩ := lineComment_len hm
    intro e; exact absurd (List.cons.inj (List.cons.inj e).2).1 (by decide)

omit [FloatIO] in
theorem termText_eq {m x : Str} (h : TermText m x) : nodeTerminator (m ++ x) = .ok () x := by
  unfold nodeTerminator
  rcases h with rfl | h | h
  · exact alt_left (lit_one _ _)
  · obtain ⟨c, q, rfl, hc⟩ := h.head
    have hc' : ';' ≠ c := by
      rintro rfl
      revert hc; decide
    have hl : lit [';'] (c :: q ++ x) = .back := lit_cons_ne hc'
    rw [alt_right hl]
    exact alt_left (newline_seq h)
  · have hs : singleLineComment (m ++ x) = .ok () x := singleLineComment_iff.mpr ⟨m, rfl, h⟩
    obtain ⟨q, rfl⟩ := lineComment_len h
    have f := slash_facts (c := '/') (by decide) (q ++ x)
    have e : '/' :: '/' :: q ++ x = '/' :: '/' :: (q ++ x) := rfl
    rw [e] at hs ⊢
    rw [alt_right (lit_cons_ne (by decide)), alt_right f.2]
    exact hs

omit [FloatIO] in
theorem termText_len {m x : Str} (h : TermText m x) : m ≠ [] := by
  rcases h with rfl | h | h
  · simp
  · obtain ⟨c, q, rfl, hc⟩ := h.head
    simp
  · obtain ⟨q, rfl⟩ := lineComment_len h
    simp

omit [FloatIO] in
theorem split_line : ∀ q : Str, ∃ b x, q = b ++ x ∧ (∀ c ∈ b, ¬ Newline c) ∧ ∀ c y, x = c :: y → Newline c
  | [] => ⟨[], [], rfl, (by rintro _ ⟨⟩), by rintro _ _ ⟨⟩⟩
  | c :: q => by
    by_cases h : Newline c
    · exact ⟨[], c :: q, rfl, (by rintro _ ⟨⟩), by rintro _ _ ⟨⟩; exact h⟩
    · obtain ⟨b, x, rfl, h1, h2⟩ := split_line q
      exact ⟨c :: b, x, rfl, by simpa [h] using h1, h2⟩

omit [FloatIO] in
theorem newlineSeq_split {c : Char} (h : Newline c) (q : Str) : ∃ nl y, c :: q = nl ++ y ∧ NewlineSeq nl y := by
  by_cases h1 : c = '\r' ∧ ∃ q', q = '\n' :: q'
  · obtain ⟨rfl, q', rfl⟩ := h1
    exact ⟨['\r', '\n'], q', rfl, Or.inl rfl⟩
  · exact ⟨[c], q, rfl, Or.inr ⟨c, rfl, h, fun hc q' e => h1 ⟨hc, q', e⟩⟩⟩

omit [FloatIO] in
theorem singleLineComment_some (q : Str) : ∃ r, singleLineComment ('/' :: '/' :: q) = .ok () r := by
  obtain ⟨b, x, rfl, h1, h2⟩ := split_line q
  cases x with
  | nil => exact ⟨[], singleLineComment_iff.mpr ⟨'/' :: '/' :: (b ++ []), by simp, b, [], rfl, h1, Or.inr ⟨rfl, rfl⟩⟩⟩
  | cons c x =>
    have hc := h2 c x rfl
    rcases newlineSeq_split hc x with ⟨nl, y, e, h3⟩
    rw [e]
    exact ⟨y, singleLineComment_iff.mpr ⟨'/' :: '/' :: (b ++ nl), by simp, b, nl, rfl, h1, Or.inl h3⟩⟩

omit [FloatIO] in
theorem nodeStop_end {x : Str} (h : NodeStop x) : NodeEnd x := by
  rcases h with h | ⟨c, q, rfl, rfl | rfl | h | ⟨rfl, q, rfl⟩⟩
  · exact Or.inl h
  · exact Or.inr (Or.inl ⟨_, rfl⟩)
  · exact Or.inr (Or.inr ⟨_, _, alt_left (lit_one _ _)⟩)
  · obtain ⟨nl, y, e, h3⟩ := newlineSeq_split h q
    rw [e]
    exact Or.inr (Or.inr ⟨_, _, termText_eq (Or.inr (Or.inl h3))⟩)
  · obtain ⟨r, hr⟩ := singleLineComment_some q
    obtain ⟨m, e, hm⟩ := singleLineComment_iff.mp hr
    rw [e]
    exact Or.inr (Or.inr ⟨_, _, termText_eq (Or.inr (Or.inr hm))⟩)

omit [FloatIO] in
/-- A further node, slashdashed or not. -/
def Next (x : Str) : Prop := Starts x ∨ ∃ b q, x = '/' :: '-' :: (b ++ q) ∧ LSpace q b ∧ Starts q

/-- What may follow a node, given its flag. -/
def Follow (k : Bool) (r : Str) : Prop := NodeEnd r ∨ (k = true ∧ Next r)

theorem Next.facts {r : Str} (h : Next r) : nodeSpace r = .back ∧ (∀ total, sdBlock total r = .back) ∧
    nodeTerminator r = .back ∧ (∀ q, r ≠ '{' :: q) ∧ ∀ q, r ≠ '=' :: q := by
  rcases h with h | ⟨b, q, rfl, hb, hq⟩
  · have h : Starts r := h
    have hs := h.solid
    refine ⟨hs.nodeSpace, fun total => bind_back hs.slashdash, ?_, ?_, h.notEq⟩
    · obtain ⟨c, q, rfl, hc⟩ := h
      have f := hc.facts
      unfold nodeTerminator
      rw [alt_right (lit_cons_ne (Ne.symm f.2.2.2.2.2.2.1)), alt_right (newline_back ?_)]
      · exact singleLineComment_back fun q' e => f.2.1 (List.cons.inj e).1
      · rintro _ _ ⟨⟩ hn
        exact f.1 (Or.inr hn)
    · obtain ⟨c, q, rfl, hc⟩ := h
      rintro q' ⟨⟩
      exact hc.facts.2.2.2.1 rfl
  · have hs : Starts q := hq
    have hsl : Slash ('/' :: '-' :: (b ++ q)) := ⟨_, rfl⟩
    refine ⟨hsl.nodeSpace, fun total => ?_, ?_, (by rintro _ ⟨⟩), hsl.notEq⟩
    · unfold sdBlock
      rw [bind_eq (slashdash_eq hb hs.solid.lineSpace)]
      obtain ⟨c, q, rfl, hc⟩ := hs
      exact void_back (bind_back (lit_cons_ne (Ne.symm hc.facts.2.2.2.1)))
    · have f := slash_facts (c := '-') (by decide) (b ++ q)
      unfold nodeTerminator
      rw [alt_right (lit_cons_ne (by decide)), alt_right f.2]
      exact singleLineComment_back fun q' e => absurd (List.cons.inj (List.cons.inj e).2).1 (by decide)

theorem Follow.facts {k : Bool} {r : Str} (h : Follow k r) : nodeSpace r = .back ∧ (∀ total, sdBlock total r = .back) ∧
    (∃ t q, takeP (opt nodeTerminator) r = .ok t q) ∧ (∀ q, r ≠ '{' :: q) ∧ ∀ q, r ≠ '=' :: q := by
  rcases h with h | ⟨_, h⟩
  · exact ⟨h.wall.nodeSpace, h.wall.sdBlock, h.optTerminator, h.not_brace, h.wall.notEq⟩
  · exact ⟨h.facts.1, h.facts.2.1, ⟨_, _, takeP_nil (opt_none h.facts.2.2.1)⟩, h.facts.2.2.2⟩

/-- What may follow the space after the entries, given the flag. -/
def MidEnd (k : Bool) (r : Str) : Prop := Wall r ∨ (k = true ∧ Next r)

theorem MidEnd.facts {k : Bool} {r : Str} (h : MidEnd k r) : nodeSpace r = .back ∧ (∀ total, sdBlock total r = .back) ∧
    ∀ q, r ≠ '=' :: q := by
  rcases h with h | ⟨_, h⟩
  · exact ⟨h.nodeSpace, h.sdBlock, h.notEq⟩
  · exact ⟨h.facts.1, h.facts.2.1, h.facts.2.2.2.2⟩

theorem Follow.mid {k : Bool} {r : Str} (h : Follow k r) : MidEnd k r := h.imp NodeEnd.wall id

theorem MidEnd.wall {r : Str} (h : MidEnd false r) : Wall r := h.resolve_right fun h => absurd h.1 (by decide)

/-- What each category means to the parser. -/
def CatReads : Cat → Str → Str → Prop
  | .node k d, r, B => Starts B ∧ (Follow k r → ∀ total, ∃ n, baseNode total (B ++ r) = .ok n r ∧ semNode id n = d)
  | .lead, r, L => Solid r → (∀ q, L ++ r = '/' :: '-' :: q → Next (L ++ r)) ∧
      ∀ total, Drain (lineSpace <+> (do slashdash; void (baseNode total))) (L ++ r) r
  | .blocks, _, C => BlocksRun C
  | .mid k, r, w => MidEnd k r → Mid w r
  | .tail, r, v => ∀ k, Follow k r → TailAt v r
  | .items ds, r, T => Starts T ∧ (DocEnd r → ∀ total p L, leadingItems (baseNode total) p = .ok L (T ++ r) →
      ∃ n ns q q1 q2 u L', nodeF (baseNode total) p = .ok n q ∧ SepMore (nodeF (baseNode total)) nodeTerminator q ns q1 ∧
        semNodes id (n :: ns) = ds ∧ opt nodeTerminator q1 = .ok u q2 ∧ leadingItems (baseNode total) q2 = .ok L' r)
  | .nodes ds, r, D => DocEnd r → NodesAt ds r D

/-- Entries in front of something that is read as entries. -/
theorem EntsTok.more {ds : List (SEntry Value)} {T : Str} (h : EntsTok id ds T) {y z : Str} {es : List Entry} {total : Nat}
    (hy : AfterEntry y) (he : entriesP total y = .ok es z) :
    AfterEntry (T ++ y) ∧ ∃ es', entriesP total (T ++ y) = .ok es' z ∧ es'.map (semEntry id) = ds ++ es.map (semEntry id) := by
  unfold entriesP at he ⊢
  induction h with
  | nil => exact ⟨hy, es, he, rfl⟩
  | @cons w t T d ds hw ht hT ih =>
    obtain ⟨ha, es', h1, h2⟩ := ih
    obtain ⟨e, h3, h4⟩ := ht.2 total (T ++ y) ha
    rw [List.append_assoc, List.append_assoc]
    obtain ⟨⟨q, hq⟩, hl, hf⟩ := hw total (t ++ (T ++ y)) (ht.1.append _)
    obtain ⟨e', h5, h6⟩ := entryLeading_nodeEntry hl h3
    refine ⟨hf, e' :: es', rep0_cons (a := e') (r := T ++ y) ?_ ?_ h1, ?_⟩
    · rw [bind_eq (peek_eq hq)]; exact h5
    · obtain ⟨c, q, rfl, _⟩ := ht.1
      simp only [List.length_append, List.length_cons]; omega
    · simp only [List.map_cons, List.cons_append, h6, h4, h2]

/-- A node without children whose last entry ends with a keyword. -/
theorem baseNode_keyword {ty : Option Str} {nm tt nt T w t r : Str} {ds : List (SEntry Value)} {d : SEntry Value}
    (h1 : TyText nt ty tt) (h2 : StrText nt nm) (h3 : EntriesText ds T) (h4 : EntryLead t w) (h5 : EntryEnd true d t)
    (f1 : nodeSpace r = .back) {x q' : Str} (f3 : takeP (opt nodeTerminator) r = .ok x q') (f4 : ∀ q, r ≠ '{' :: q) (total : Nat) :
    ∃ n, baseNode total ((tt ++ (nt ++ (T ++ (w ++ t)))) ++ r) = .ok n r ∧ semNode id n = .mk ty nm (ds ++ [d]) none := by
  have hs := (EntTok.text h5.entry).1
  obtain ⟨⟨q, l1⟩, l2, l3⟩ := ELead.text h4 hs total (t ++ r) (hs.append r)
  obtain ⟨e, b1, b2⟩ := h5.keyword total r
  obtain ⟨e', b3, b4⟩ := entryLeading_nodeEntry l2 b1
  have n1 : nodeSpace1 r = .back := void_back (rep1_back f1)
  have n0 : nodeSpace0 r = .ok () r := WSp.nil _ f1
  have e0 : entriesP total (w ++ (t ++ r)) = .ok [e'] r := by
    unfold entriesP
    refine rep0_cons ?_ ?_ (rep0_nil (bind_back (peek_back n1)))
    · rw [bind_eq (peek_eq l1)]; exact b3
    · obtain ⟨c, q, rfl, _⟩ := hs
      simp only [List.length_append, List.length_cons]; omega
  obtain ⟨a1, es, a2, a3⟩ := (EntsTok.text h3).more l3 e0
  have m0 : beforeNodeChildrenF total (baseNode total) r = .ok () r := by
    unfold beforeNodeChildrenF
    rw [bind_eq (a := ()) (r := r)]
    · exact n0
    · rw [alt_right (bind_back n1), alt_right (bind_back n1), alt_right (bind_back n1)]
      exact n0
  simp only [List.append_assoc]
  refine baseNode_core (TyTok.text h1 h2.ne) (StrTok.text h2) a1.1 a2 (by simp [a3, b4, b2]) (ch := none) (z := r) ?_ rfl
    (bt := []) (q := r) ?_ f3 n0
  · apply opt_none
    rw [bind_eq (takeP_nil m0)]
    exact bind_back (bind_back (lit_back.mpr f4))
  · exact takeP_nil m0

theorem leadingItems_of {total : Nat} {L r : Str} (h : CatReads .lead r L) (hr : Solid r) :
    leadingItems (baseNode total) (L ++ r) = .ok L r := by
  obtain ⟨l, hl⟩ := (h hr).2 total
  exact takeP_eq hl

theorem nodeF_of {total : Nat} {n : Node} {B p L r : Str} (h : baseNode total (B ++ r) = .ok n r)
    (hp : leadingItems (baseNode total) p = .ok L (B ++ r)) :
    ∃ n', nodeF (baseNode total) p = .ok n' r ∧ semNode id n' = semNode id n := by
  unfold nodeF
  rw [bind_eq hp, bind_eq h]
  exact ⟨_, rfl, semNode_setFormat _ _⟩

/-- Texts of the grammar are read as what they stand for. -/
theorem Spec.Text.reads {c : Cat} {r t : Str} (h : Text c r t) : CatReads c r t := by
  induction h with
  | leaf h1 h2 h3 _ ih =>
    have h1 := TyTok.text h1 h2.ne
    have h2 := StrTok.text h2
    refine ⟨h1.starts (h2.starts.append _), fun hr total => ?_⟩
    obtain ⟨f1, _, ⟨x, q', f3⟩, f4, _⟩ := hr.facts
    obtain ⟨m1, m2⟩ := ih hr.mid
    simp only [List.append_assoc]
    refine baseNode_parts h1 h2 (EntsTok.text h3) m1 total (ch := none) ?_ rfl (takeP_eq (m2 total)) f3 (WSp.nil _ f1)
    apply opt_none
    rw [bind_eq (takeP_eq (m2 total))]
    exact bind_back (bind_back (lit_back.mpr f4))
  | leafKeyword h1 h2 h3 h4 h5 =>
    refine ⟨(TyTok.text h1 h2.ne).starts ((StrTok.text h2).starts.append _), fun hr total => ?_⟩
    obtain ⟨f1, _, ⟨x, q', f3⟩, f4, _⟩ := hr.facts
    exact baseNode_keyword h1 h2 h3 h4 h5 f1 f3 f4 total
  | block h1 h2 h3 _ _ _ ih4 ih5 ih6 =>
    have h1 := TyTok.text h1 h2.ne
    have h2 := StrTok.text h2
    exact ⟨h1.starts (h2.starts.append _), fun hr total => baseNode_block h1 h2 (EntsTok.text h3)
      (fun x => ih4 x (Or.inl (Or.inr (Or.inl ⟨_, rfl⟩)))) total (fun x => ih5 x (Or.inr ⟨_, rfl⟩) total) (ih6 _ hr)⟩
  | midSpace h => exact fun hr => Mid.space (h.space0 hr.wall.nodeSpace) hr.wall
  | midEntries h1 hne h2 h3 => exact fun hr => Mid.entries h1 hne h2 h3 hr.wall
  | midKeyword h1 hne h2 => exact fun hr => Mid.keyword h1 hne h2 hr.facts.1 hr.facts.2.2
  | midBlocks h1 hne _ h3 ih => exact fun hr => Mid.blocks h1 hne ih h3 hr.facts.1 fun _ => hr.facts.2.1
  | midBoth h1 hne h2 h3 hne' _ h5 ih => exact fun hr => Mid.both h1 hne h2 h3 hne' ih h5 hr.facts.1 fun _ => hr.facts.2.1
  | tailSpace h => exact fun k hr => TailAt.nodeSpace (h.space0 hr.facts.1) hr.facts.2.1 hr.facts.2.2.1
  | tailBlocks h1 _ h3 ih => exact fun k hr => TailAt.blocks h1 ih h3 hr.facts.1 hr.facts.2.1 hr.facts.2.2.1
  | blocksOne hb _ ih => exact BlocksRun.one hb fun x => ih x (Or.inr ⟨_, rfl⟩)
  | blocksCons hb _ hw hne _ ihD ihT => exact BlocksRun.cons hb (fun x => ihD x (Or.inr ⟨_, rfl⟩)) hw hne ihT
  | leadNil => exact fun hr => ⟨fun q e => absurd rfl (hr _ _ e).2.1, fun total => Drain.stop (hr.leadStop total)⟩
  | @leadSpace r w L hw _ ih =>
    intro hr
    rw [List.append_assoc]
    refine ⟨fun q e => ?_, fun total => hw.drain ((ih hr).2 total)⟩
    by_cases hne : w = []
    · subst hne
      exact (ih hr).1 q e
    · exact absurd e (hw.notSlash hne q)
  | @leadNode k r b B L d hb _ hs _ ihB ihL =>
    intro hr
    have hst := ihB.1.append (L ++ r)
    have hne : B ≠ [] := by
      obtain ⟨c, q, rfl, _⟩ := ihB.1
      simp
    have e : '/' :: '-' :: (b ++ (B ++ L)) ++ r = '/' :: '-' :: (b ++ (B ++ (L ++ r))) := by simp
    have hb' := hb.swap hne hst.solid.notNl
    rw [e]
    refine ⟨fun q _ => Or.inr ⟨b, _, rfl, hb', hst⟩, fun total => ?_⟩
    have hf : Follow k (L ++ r) := by
      rcases hs with hs | ⟨hk, hs | ⟨q, hs⟩⟩
      · exact Or.inl (nodeStop_end hs)
      · exact Or.inr ⟨hk, Or.inl hs⟩
      · exact Or.inr ⟨hk, (ihL hr).1 q hs⟩
    obtain ⟨n, hn, _⟩ := ihB.2 hf total
    have h1 := slashdash_eq hb' hst.solid.lineSpace
    refine Drain.step (a := ()) (q := L ++ r) ?_ ?_ ((ihL hr).2 total)
    · have hsl : Slash ('/' :: '-' :: (b ++ (B ++ (L ++ r)))) := ⟨_, rfl⟩
      rw [alt_right hsl.lineSpace, bind_eq h1]
      exact void_eq hn
    · simp only [List.length_cons, List.length_append]; omega
  | @last k r B d _ ih =>
    refine ⟨ih.1, fun hr total p L hp => ?_⟩
    obtain ⟨n, h1, h2⟩ := ih.2 (Or.inl hr.nodeEnd) total
    obtain ⟨n', h3, h4⟩ := nodeF_of h1 hp
    exact ⟨n', [], r, r, r, _, _, h3, .nil hr.terminator, by simp [semNodes, h4, h2], opt_none hr.terminator,
        Lead.nil total r hr.solid⟩
  | @lastTerm k r B m L d _ hm _ ihB ihL =>
    refine ⟨ihB.1.append _, fun hr total p L' hp => ?_⟩
    have e : (B ++ (m ++ L)) ++ r = B ++ (m ++ (L ++ r)) := by simp
    rw [e] at hp
    obtain ⟨n, h1, h2⟩ := ihB.2 (Or.inl (Or.inr (Or.inr ⟨_, _, termText_eq hm⟩))) total
    obtain ⟨n', h3, h4⟩ := nodeF_of h1 hp
    have h5 := leadingItems_of (total := total) ihL hr.solid
    exact ⟨n', [], _, _, _, _, L, h3, .stop (termText_eq hm) (len_lt (termText_len hm)) (nodeF_end h5 hr),
      by simp [semNodes, h4, h2], opt_some (termText_eq hm), h5⟩
  | @lastSlash r q B d _ _ ihB ihL =>
    refine ⟨ihB.1.append _, fun hr total p L' hp => ?_⟩
    rw [List.append_assoc] at hp
    have hn : Next ('/' :: '-' :: q ++ r) := (ihL hr.solid).1 _ rfl
    obtain ⟨n, h1, h2⟩ := ihB.2 (Or.inr ⟨rfl, hn⟩) total
    obtain ⟨n', h3, h4⟩ := nodeF_of h1 hp
    have h5 := leadingItems_of (total := total) ihL hr.solid
    exact ⟨n', [], _, _, _, _, _, h3, .nil hn.facts.2.2.1, by simp [semNodes, h4, h2], opt_none hn.facts.2.2.1, h5⟩
  | @cons k r B m L T d ds _ hm _ _ ihB ihL ihT =>
    refine ⟨ihB.1.append _, fun hr total p L' hp => ?_⟩
    have e : (B ++ (m ++ (L ++ T))) ++ r = B ++ (m ++ (L ++ (T ++ r))) := by simp
    rw [e] at hp
    obtain ⟨n, h1, h2⟩ := ihB.2 (Or.inl (Or.inr (Or.inr ⟨_, _, termText_eq hm⟩))) total
    obtain ⟨n', h3, h4⟩ := nodeF_of h1 hp
    have h5 := leadingItems_of (total := total) ihL (ihT.1.append r).solid
    obtain ⟨n'', ns, q', q1, q2, u, L'', h6, h7, h8, h9, h10⟩ := ihT.2 hr total _ _ h5
    exact ⟨n', n'' :: ns, _, q1, q2, u, L'', h3, .cons (termText_eq hm) (len_lt (termText_len hm)) h6 h7,
      by rw [semNodes, h4, h2, h8], h9, h10⟩
  | @empty r L _ ih =>
    intro hr total
    have hl : leadingItems (baseNode total) r = .ok [] r := Lead.nil total _ hr.solid
    have h1 : sep0 (nodeF (baseNode total)) nodeTerminator r = .ok [] r := by
      unfold sep0
      rw [nodeF_end hl hr]
    unfold nodesF
    rw [bind_eq (leadingItems_of ih hr.solid), bind_here, bind_eq h1, bind_here, bind_eq (opt_none hr.terminator), bind_eq hl]
    exact ⟨_, rfl, rfl⟩
  | @items r L T ds _ _ ihL ihT =>
    intro hr total
    rw [List.append_assoc]
    have hs := ihT.1.append r
    obtain ⟨n, ns, q, q1, q2, u, L', h1, h2, h3, h4, h5⟩ := ihT.2 hr total _ _ (Lead.nil total _ hs.solid)
    unfold nodesF
    have h6 : sep0 (nodeF (baseNode total)) nodeTerminator (T ++ r) = .ok (n :: ns) q1 := by
      have := sepMore_of (Strict.nodeF (Strict.baseNode total)).sfx h2
      rw [List.nil_append] at h1
      unfold sep0
      rw [h1]
      simp only
      rw [this]
    rw [bind_eq (leadingItems_of ihL hs.solid), bind_here, bind_eq h6, bind_here, bind_eq h4, bind_eq h5]
    refine ⟨_, rfl, ?_⟩
    have := giveLeading_sem (g := id) L (n :: ns)
    rw [h3] at this
    exact this

/-- Texts of documents are accepted, with the data they stand for. -/
theorem Spec.DocumentText.parse {ds : List (SNode Value)} {D : Str} (h : DocumentText ds D) :
    ∃ d, Document.parse D = .ok d ∧ semDoc id d = ds := by
  have hr : NodesAt ds [] D := h.reads (Or.inl rfl)
  have hb : ∀ q, D ≠ Char.ofNat 0xFEFF :: q := by
    obtain ⟨d, h1, _⟩ := hr 0
    rw [List.append_nil] at h1
    exact nodesF_not_bom h1
  obtain ⟨d, h1, h2⟩ := hr (utf8Len D)
  rw [List.append_nil] at h1
  refine ⟨d, ?_, h2⟩
  unfold Document.parse tryParse
  have h3 : documentP (utf8Len D) D = .ok d [] := by
    unfold documentP
    have h4 : opt (takeP bom) D = .ok none D := opt_none (takeP_back (lit_back.mpr hb))
    have h5 : cutErr eof ([] : Str) = .ok () [] := rfl
    rw [bind_eq h4, bind_eq h1, bind_eq h5]
    rfl
  rw [bind_eq h3]
  rfl

/-! ### Printed entries -/

omit [FloatIO] in
theorem Spec.StrText.write {v : Str} (h : Writable v) : StrText (writeString v) v := by
  have := stringP_write h Ends.nil
  obtain ⟨t, e, h1, _⟩ := stringP_iff.mp this
  rw [List.append_nil, List.append_nil] at e
  rw [e]; exact h1

theorem Spec.ValText.write [LawfulFloatIO] {v : Value} (h : WritableValue v) : ValText v.display (canonValue v) := by
  have := ((ValTok.write h).2 [] Ends.nil).2.1
  obtain ⟨t, e, h1, _⟩ := valueBody_inv this
  rw [List.append_nil, List.append_nil] at e
  rw [e]; exact h1

theorem Spec.StrText.ident {i : Ident} (hr : i.repr = none) (h : Writable i.value) : StrText i.display i.value := by
  unfold Ident.display
  rw [hr]
  exact StrText.write h

/-- A printed entry is a text of an entry. -/
theorem Spec.EntryText.write [LawfulFloatIO] {e : Entry} (h0 : e.format = none) (h1 : ∀ n, e.name = some n → n.repr = none)
    (h2 : ∀ n, e.ty = some n → n.repr = none) (hw : EntryWritable e) : EntryText (semEntry canonValue e) e.display := by
  obtain ⟨ty, v, name, format, span⟩ := e
  obtain rfl : format = none := h0
  have hv := ValText.write hw.value
  have ht : ∃ tt, TyText v.display (ty.map Ident.value) tt ∧ (Entry.mk ty v name none span).displayTy = tt := by
    cases ty with
    | none => exact ⟨_, .none, rfl⟩
    | some t =>
      refine ⟨_, .some (StrText.ident (h2 t rfl) (hw.ty t rfl)) .nil .nil .nil, ?_⟩
      simp [Entry.displayTy]
  obtain ⟨tt, ht, e⟩ := ht
  unfold Entry.display
  rw [e]
  cases name with
  | none =>
    have := EntryEnd.arg (k := false) ht hv
    simpa [Entry.displayKey, semEntry] using this
  | some n =>
    have := EntryEnd.prop (k := false) (StrText.ident (h1 n rfl) (hw.name n rfl)) .nil .nil ht hv
    simpa [Entry.displayKey, semEntry] using this

/-- Printed entries, each preceded by a space. -/
theorem Spec.EntriesText.write [LawfulFloatIO] : ∀ {es : List Entry}, (∀ e ∈ es, e.format = none ∧
    (∀ n, e.name = some n → n.repr = none) ∧ (∀ n, e.ty = some n → n.repr = none) ∧ EntryWritable e) →
    EntriesText (es.map (semEntry canonValue)) (es.flatMap fun e => ' ' :: e.display)
  | [], _ => .nil
  | e :: es, h => by
    obtain ⟨h0, h1, h2, h3⟩ := h e (by simp)
    have := EntriesText.cons (.space (.space (c := ' ') (by decide) .nil) (by simp)) (EntryText.write h0 h1 h2 h3)
      (EntriesText.write (es := es) fun x hx => h x (by simp [hx]))
    simpa using this

end

end Kdl
