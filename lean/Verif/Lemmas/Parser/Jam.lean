import Verif.Lemmas.Parser.Lost
/-
A printed document with a string or number that cannot be read is not accepted.
-/

namespace Kdl
open Spec

section
variable [FloatIO] {α : Type} {g : Value → α}

/-! ### Strings and values -/

/-- The text is not read as a string or as another value, whatever follows it. -/
structure StrBad (t : Str) : Prop where
  starts : Starts t
  paren : ∀ r q, t ++ r ≠ '(' :: q
  string : ∀ r v q, stringP (t ++ r) ≠ .ok v q
  keyword : ∀ r, keyword (t ++ r) = .back
  number : ∀ r, number (t ++ r) = .back

theorem StrBad.write {s : Str} (h : ¬ Writable s) : StrBad (writeString s) := by
  have hno : ∀ r v q, stringP (writeString s ++ r) ≠ .ok v q := fun r v q e => h (stringP_write_inv e)
  by_cases hp : (!s.isEmpty && isPlainIdent s) = true
  · have e : writeString s = s := by unfold writeString; rw [if_pos hp]
    rw [e] at hno ⊢
    simp only [Bool.and_eq_true, Bool.not_eq_true', List.isEmpty_eq_false_iff] at hp
    have hsp : SignedPoint s := Classical.byContradiction fun hn =>
      h ⟨fun c hc => ident_clean (isPlainIdent_ident hp.2 c hc), hn⟩
    obtain ⟨⟨g, d, t, hg, hd, rfl⟩, hid⟩ := hsp
    have ne : ∀ {x : Char}, x ≠ '+' → x ≠ '-' → ∀ r q, g :: '.' :: d :: t ++ r ≠ x :: q := by
      intro x h1 h2 r q e
      have := (List.cons.inj e).1
      rcases hg with rfl | rfl
      · exact h1 this.symm
      · exact h2 this.symm
    refine ⟨⟨_, _, rfl, Or.inl (hid _ (by simp))⟩, ne (by decide) (by decide), hno,
      fun r => keyword_back (ne (by decide) (by decide) r), fun r => ?_⟩
    have hnd : NoDigit ('.' :: d :: (t ++ r)) := by rintro _ _ ⟨⟩; rfl
    rcases hg with rfl | rfl
    · exact number_back (b := true) rfl hnd
    · exact number_back (b := false) rfl hnd
  · have e : writeString s = '"' :: (s.flatMap escapeChar ++ ['"']) := by unfold writeString; rw [if_neg hp]; rfl
    rw [e] at hno ⊢
    refine ⟨⟨_, _, rfl, by simp [Start]⟩, by rintro r q ⟨⟩, hno, fun r => keyword_back (by rintro q ⟨⟩),
      fun r => number_back (signum_none (by decide) (by decide)) ?_⟩
    rintro _ _ ⟨⟩
    rfl

/-- The text is not read as a value. -/
structure ValBad (t : Str) : Prop where
  starts : Starts t
  paren : ∀ r q, t ++ r ≠ '(' :: q
  string : ∀ r v q, stringP (t ++ r) ≠ .ok v q
  value : ∀ r, Ends r → ∀ v q, valueBody (t ++ r) ≠ .ok v q

theorem StrBad.val {t : Str} (h : StrBad t) : ValBad t := by
  refine ⟨h.starts, h.paren, h.string, fun r _ v q e => ?_⟩
  unfold valueBody at e
  rw [alt_right (h.keyword r), alt_right (h.number r), bind_ok] at e
  obtain ⟨_, _, e, _⟩ := e
  exact h.string _ _ _ e

theorem ValBad.int {t : Str} {i : Int} (h : IntLit t i) (hv : ¬ i.natAbs ≤ i128Max) : ValBad t := by
  refine ⟨?_, ?_, fun r v q e => ?_, fun r hr v q e => ?_⟩
  · obtain ⟨c, q, e, hc⟩ := numberLike_head (intLit_numberLike (r := []) h)
    rw [List.append_nil] at e
    refine ⟨c, q, e, Or.inl ?_⟩
    rcases hc with rfl | rfl | rfl | hc
    · decide
    · decide
    · decide
    · exact isDisallowedIdentChar_iff.mp (hex_not_disallowed (hex_of_dec hc))
  · intro r q e
    obtain ⟨c, q', e', hc⟩ := numberLike_head (intLit_numberLike (r := r) h)
    rw [e] at e'
    obtain ⟨rfl, _⟩ := List.cons.inj e'
    revert hc
    decide
  · rw [stringP_num (intLit_numberLike h)] at e
    cases e
  · rcases valueBody_int_out h hr hv with h | h <;> rw [h] at e <;> cases e

theorem ValBad.write {v : Value} (h : ¬ WritableValue v) : ValBad v.display := by
  cases v with
  | string s => exact (StrBad.write h).val
  | integer i =>
    refine ValBad.int (showInt_lit i.val) fun hn => h fun e => ?_
    rw [e] at hn
    exact absurd hn (by decide)
  | float x => exact absurd trivial h
  | bool b => exact absurd trivial h
  | null => exact absurd trivial h

/-! ### Entries -/

theorem identifier_bad {t : Str} (h : ∀ v q, stringP t ≠ .ok v q) (total : Nat) (i : Ident) (z : Str) :
    identifier total t ≠ .ok i z := by
  intro e
  obtain ⟨_, _, _, _, _, h'⟩ := identifier_inv e
  exact h _ _ h'

omit [FloatIO] in
/-- The parser gives up. -/
def Fatal {α : Type} (x : Res α) : Prop := x = .cut ∨ x = .crash

omit [FloatIO] in
theorem Fatal.cutErr {α : Type} {p : P α} {s : Str} (h : ∀ a z, p s ≠ .ok a z) : Fatal (Kdl.cutErr p s) := by
  unfold Kdl.cutErr
  cases hp : p s with
  | ok a z => exact absurd hp (h a z)
  | back => exact Or.inl rfl
  | cut => exact Or.inl rfl
  | crash => exact Or.inr rfl

omit [FloatIO] in
theorem Fatal.bind {α β : Type} {p : P α} {f : α → P β} {s : Str} (h : Fatal (p s)) : Fatal ((p >>= f) s) := by
  rcases h with h | h
  · exact Or.inl (bind_cut h)
  · exact Or.inr (bind_crash h)

omit [FloatIO] in
theorem Fatal.opt {α : Type} {p : P α} {s : Str} (h : Fatal (p s)) : Fatal (Kdl.opt p s) := by
  unfold Kdl.opt
  rcases h with h | h
  · exact Or.inl (by rw [h])
  · exact Or.inr (by rw [h])

omit [FloatIO] in
theorem Fatal.not_ok {α : Type} {x : Res α} (h : Fatal x) (a : α) (z : Str) : x ≠ .ok a z := by
  rcases h with rfl | rfl <;> rintro ⟨⟩

/-- A bad annotation is a fatal error. -/
theorem tyP_bad {t r : Str} (h : StrBad t) (total : Nat) : Fatal (tyP total ('(' :: (t ++ r))) := by
  unfold tyP
  rw [bind_eq (lit_one _ _), bind_eq (takeP_nil (h.starts.append r).solid.nodeSpace0)]
  refine Fatal.bind (Fatal.cutErr fun a z e => ?_)
  rw [bind_ok] at e
  obtain ⟨i, y, e, _⟩ := e
  exact identifier_bad (h.string r) _ _ _ e

/-- The text is not read as an entry. -/
def EntBad (t : Str) : Prop := Starts t ∧ ∀ total r, Ends r → ∀ e z, entryBody total (t ++ r) ≠ .ok e z

/-- The text is not read as a value, with its annotation. -/
def ValueBad (t : Str) : Prop := Starts t ∧ (∀ r v q, stringP (t ++ r) ≠ .ok v q) ∧
  ∀ total r, Ends r → ∀ e z, value total (t ++ r) ≠ .ok e z

theorem ValBad.valueBad {t : Str} (h : ValBad t) : ValueBad t := by
  refine ⟨h.starts, h.string, fun total r hr e z h1 => ?_⟩
  unfold Kdl.value at h1
  rw [bind_here, bind_eq (opt_none (bind_back (tyP_back (h.paren r)))), bind_here, bind_ok] at h1
  obtain ⟨v, q, h1, _⟩ := h1
  exact h.value r hr _ _ h1

omit [FloatIO] in
theorem stringP_paren (q : Str) : stringP ('(' :: q) = .back := by
  apply stringP_back
  · rintro c q e
    rw [← (List.cons.inj e).1]
    decide
  · rintro q e
    exact absurd (List.cons.inj e).1 (by decide)
  · rintro q e
    exact absurd (List.cons.inj e).1 (by decide)

theorem ValueBad.ty {t y : Str} (h : StrBad t) : ValueBad ('(' :: (t ++ y)) := by
  refine ⟨⟨_, _, rfl, by simp [Start]⟩, fun r v q e => ?_, fun total r hr e z => ?_⟩
  · rw [List.cons_append, stringP_paren] at e
    cases e
  · unfold Kdl.value
    rw [bind_here, List.cons_append, List.append_assoc]
    exact (Fatal.bind (Fatal.opt (Fatal.bind (tyP_bad h total)))).not_ok e z

theorem ValueBad.typed {i it t : Str} (hi : StrTok i it) (h : ValBad t) : ValueBad ('(' :: (it ++ ')' :: t)) := by
  refine ⟨⟨_, _, rfl, by simp [Start]⟩, fun r v q e => ?_, fun total r hr e z h1 => ?_⟩
  · rw [List.cons_append, stringP_paren] at e
    cases e
  · obtain ⟨id, h2, _⟩ := tyP_tok hi Sp.nil Sp.nil total (t ++ r)
    unfold Kdl.value at h1
    simp only [List.cons_append, List.append_assoc, List.nil_append] at h1 h2
    rw [bind_here, bind_eq (opt_some (by rw [bind_eq h2, bind_eq (takeP_nil (h.starts.append r).solid.nodeSpace0)]; rfl)),
      bind_here, bind_ok] at h1
    obtain ⟨v, q, h1, _⟩ := h1
    exact h.value r hr _ _ h1

theorem ValueBad.entBad {t : Str} (h : ValueBad t) : EntBad t := by
  refine ⟨h.1, fun total r hr e z h1 => ?_⟩
  unfold entryBody at h1
  rw [bind_ok] at h1
  obtain ⟨o, y, h2, h1⟩ := h1
  rcases opt_ok.mp h2 with ⟨i, _, h2⟩ | ⟨rfl, rfl, _⟩
  · exact identifier_bad (h.2.1 r) _ _ _ h2
  · exact h.2.2 total r hr e z h1

theorem EntBad.name {t y : Str} (h : StrBad t) : EntBad (t ++ y) := by
  refine ⟨h.starts.append _, fun total r hr e z h1 => ?_⟩
  rw [List.append_assoc] at h1
  unfold entryBody at h1
  rw [bind_ok] at h1
  obtain ⟨o, y, h2, h1⟩ := h1
  rcases opt_ok.mp h2 with ⟨i, _, h2⟩ | ⟨rfl, rfl, _⟩
  · exact identifier_bad (h.string _) _ _ _ h2
  · unfold Kdl.value at h1
    simp only at h1
    rw [bind_here, bind_eq (opt_none (bind_back (tyP_back (h.paren _)))), bind_here, bind_ok] at h1
    obtain ⟨v, q, h1, _⟩ := h1
    unfold valueBody at h1
    rw [alt_right (h.keyword _), alt_right (h.number _), bind_ok] at h1
    obtain ⟨_, _, h1, _⟩ := h1
    exact h.string _ _ _ h1

theorem ValueBad.prop {k kt t : Str} (hk : StrTok k kt) (h : ValueBad t) : EntBad (kt ++ '=' :: t) := by
  refine ⟨hk.starts.append _, fun total r hr e z h1 => ?_⟩
  have e1 := solid_lit (c := '=') (by simp) (t ++ r)
  have e2 := ends_lit (c := '=') (by simp) (t ++ r)
  have e3 : equalsSign ('=' :: (t ++ r)) = .ok () (t ++ r) := lit_one _ _
  unfold entryBody at h1
  simp only [List.append_assoc, List.cons_append] at h1
  rw [bind_eq (opt_some (identifier_eq (hk _ e2)))] at h1
  simp only at h1
  rw [bind_eq (opt_some (by rw [bind_eq (takeP_nil e1.nodeSpace0), bind_eq e3]; rfl))] at h1
  simp only at h1
  rw [bind_eq (takeP_nil (h.1.append r).solid.nodeSpace0)] at h1
  exact (Fatal.bind (Fatal.cutErr (h.2.2 total r hr))).not_ok _ _ h1

/-- An entry without formatting whose parts are read back or cannot be read. -/
structure EntFrame (e : Entry) : Prop where
  format : e.format = none
  name : ∀ n, e.name = some n → StrTok n.value n.display ∨ StrBad n.display
  ty : ∀ n, e.ty = some n → StrTok n.value n.display ∨ StrBad n.display
  value : ValTok (canonValue e.value) e.value.display ∨ ValBad e.value.display

theorem EntFrame.split {e : Entry} (h : EntFrame e) : EntPlain e ∨ EntBad e.display := by
  obtain ⟨ty, v, name, format, span⟩ := e
  obtain ⟨rfl, hn, ht, hv⟩ := h
  have h1 : ((∀ n, ty = some n → StrTok n.value n.display) ∧ ValTok (canonValue v) v.display) ∨
      ValueBad (tyText ty ++ v.display) := by
    cases ty with
    | none =>
      rcases hv with hv | hv
      · exact Or.inl ⟨by rintro _ ⟨⟩, hv⟩
      · exact Or.inr hv.valueBad
    | some t =>
      rcases ht t rfl with ht | ht
      · rcases hv with hv | hv
        · exact Or.inl ⟨by rintro _ ⟨⟩; exact ht, hv⟩
        · exact Or.inr (by simpa [tyText] using ValueBad.typed ht hv)
      · exact Or.inr (by simpa [tyText] using ValueBad.ty (y := ')' :: v.display) ht)
  have e0 : ∀ x : Str, (Entry.mk ty v name none span).display = (match name with | some n => n.display ++ ['='] | none => []) ++
      (tyText ty ++ v.display) := by
    intro x
    cases ty <;> cases name <;> simp [Entry.display, Entry.displayKey, Entry.displayTy, tyText]
  rw [e0 []]
  cases name with
  | none =>
    rcases h1 with ⟨h1, h2⟩ | h1
    · exact Or.inl ⟨rfl, by rintro _ ⟨⟩, h1, h2⟩
    · exact Or.inr h1.entBad
  | some n =>
    rcases hn n rfl with hn | hn
    · rcases h1 with ⟨h1, h2⟩ | h1
      · exact Or.inl ⟨rfl, by rintro _ ⟨⟩; exact hn, h1, h2⟩
      · exact Or.inr (by simpa using ValueBad.prop hn h1)
    · exact Or.inr (by simpa using EntBad.name (y := '=' :: (tyText ty ++ v.display)) hn)

/-! ### Nodes -/

/-- Whatever the parser reads of the text as a node, it stops in front of another node. -/
def Jam (X : Str) : Prop := ∀ total n z, baseNode total X = .ok n z → Starts z

omit [FloatIO] in
theorem rep0_step {α : Type} {p : P α} {s r y : Str} {a : α} {l : List α} (h : p s = .ok a r) (e : rep0 p s = .ok l y) :
    ∃ l', rep0 p r = .ok l' y := by
  rw [rep0_unfold, h] at e
  simp only at e
  split at e
  · cases hr : rep0 p r with
    | ok as r' =>
      rw [hr] at e
      simp only [Res.ok.injEq] at e
      exact ⟨as, by rw [e.2]⟩
    | back => rw [hr] at e; cases e
    | cut => rw [hr] at e; cases e
    | crash => rw [hr] at e; cases e
  · cases e

omit [FloatIO] in
theorem rep0_stay {α : Type} {p : P α} {s y : Str} {l : List α} (h : ∀ a r, p s ≠ .ok a r) (e : rep0 p s = .ok l y) : y = s := by
  rw [rep0_unfold] at e
  cases hp : p s with
  | ok a r => exact absurd hp (h a r)
  | back => rw [hp] at e; cases e; rfl
  | cut => rw [hp] at e; cases e
  | crash => rw [hp] at e; cases e

omit [FloatIO] in
theorem sp_one : Sp [' '] := Sp.spaces (by decide)

/-- Entries in front of a bad one. -/
theorem entries_jam {T X F : Str} {ds : List (SEntry α)} (h : EntsTok g ds T) (hX : EntBad X) (hF : Ends F) (total : Nat)
    {es : List Entry} {y : Str} (e : entriesP total (T ++ ' ' :: (X ++ F)) = .ok es y) : y = ' ' :: (X ++ F) := by
  have hl : ELead [' '] := ELead.space sp_one (by simp)
  obtain ⟨⟨q0, hq0⟩, hl2, hl3⟩ := hl total (X ++ F) (hX.1.append F)
  have hf : ∀ {ds : List (SEntry α)} {T : Str}, EntsTok g ds T → AfterEntry (T ++ ' ' :: (X ++ F)) := by
    intro ds T h
    cases h with
    | nil => exact hl3
    | cons hw ht hT =>
      rw [List.append_assoc, List.append_assoc]
      exact (hw 0 _ (ht.1.append _)).2.2
  unfold entriesP at e
  induction h generalizing es with
  | nil =>
    refine rep0_stay (fun a r h1 => ?_) e
    rw [bind_eq (peek_eq (s := ' ' :: (X ++ F)) hq0), nodeEntry_unfold] at h1
    unfold nodeEntryF at h1
    rw [bind_eq (s := ' ' :: (X ++ F)) hl2, bind_here, bind_ok] at h1
    obtain ⟨e', z, h1, _⟩ := h1
    exact hX.2 total F hF e' z h1
  | @cons w t T d ds hw ht hT ih =>
    obtain ⟨e1, h3, h4⟩ := ht.2 total (T ++ ' ' :: (X ++ F)) (hf hT)
    rw [List.append_assoc, List.append_assoc] at e
    obtain ⟨⟨q, hq⟩, hl, _⟩ := hw total (t ++ (T ++ ' ' :: (X ++ F))) (ht.1.append _)
    obtain ⟨e', h5, h6⟩ := entryLeading_nodeEntry hl h3
    obtain ⟨l', h7⟩ := rep0_step (a := e') (r := T ++ ' ' :: (X ++ F)) (by rw [bind_eq (peek_eq hq)]; exact h5) e
    exact ih h7

theorem beforeChildren_starts {X : Str} (h : Starts X) (total : Nat) :
    beforeNodeChildrenF total (baseNode total) (' ' :: X) = .ok () X := by
  have hs := h.solid
  have hn := hs.nodeSpace
  have h0 : Space0 [' '] X := sp_one X hs
  have hsd : slashdashedEntries total X = .back := void_back (sep1_back (bind_back hs.slashdash))
  have hsc : slashdashedChildrenF total (baseNode total) X = .back := by
    unfold slashdashedChildrenF
    rw [bind_eq (hs.nodeSpace0)]
    exact void_back (sep1_back (bind_back hs.slashdash))
  obtain ⟨_, _, _, h3⟩ := h0.space1 (by simp)
  have h1 : ∀ (k : P Unit), k X = .back → (do nodeSpace1; k : P Unit) (' ' :: X) = .back := by
    intro k hk
    rw [bind_eq (s := ' ' :: X) h3]
    exact hk
  unfold beforeNodeChildrenF
  rw [bind_eq (a := ()) (r := X)]
  · exact hs.nodeSpace0
  · rw [alt_right (h1 _ (bind_back hsd)), alt_right (h1 _ hsd), alt_right (h1 _ hsc)]
    exact h0

/-- A node with a bad entry. -/
theorem jam_entry {ty : Option Str} {tt nm nt T X F : Str} {ds : List (SEntry α)} (h1 : TyTok ty tt) (h2 : StrTok nm nt)
    (h3 : EntsTok g ds T) (hX : EntBad X) (hF : Ends F) : Jam (tt ++ (nt ++ (T ++ ' ' :: (X ++ F)))) := by
  intro total n z h
  have hl : ELead [' '] := ELead.space sp_one (by simp)
  have hXF := hX.1.append F
  have hY : Ends (T ++ ' ' :: (X ++ F)) := by
    cases h3 with
    | nil => exact (hl 0 _ hXF).2.2.1
    | cons hw ht hT =>
      rw [List.append_assoc, List.append_assoc]
      exact (hw 0 _ (ht.1.append _)).2.2.1
  have hs := h1.starts (h2.starts.append (T ++ ' ' :: (X ++ F)))
  obtain ⟨e1, e2⟩ := hs.notEnd
  obtain ⟨o, q1, af, e3, e4, e5⟩ := h1.parse (h2.starts.append (T ++ ' ' :: (X ++ F))) (h2.not_paren _) total
  have e8 := identifier_eq (total := total) (h2 _ hY)
  have hne : nt ≠ [] := by
    obtain ⟨c, q, rfl, _⟩ := h2.head
    simp
  have hb := beforeChildren_starts hXF total
  have hbt : takeP (beforeNodeChildrenF total (baseNode total)) (' ' :: (X ++ F)) = .ok [' '] (X ++ F) :=
    takeP_eq (t := [' ']) hb
  have hc : childrenP total (baseNode total) (' ' :: (X ++ F)) = .ok none (' ' :: (X ++ F)) := by
    apply opt_none
    rw [bind_eq hbt]
    refine bind_back (bind_back (lit_back.mpr ?_))
    obtain ⟨c, q, e, hc⟩ := hXF
    rw [e]
    rintro r ⟨⟩
    exact absurd rfl hc.facts.2.2.2.1
  rw [baseNode_unfold] at h
  unfold baseNodeF at h
  rw [bind_eq e1, bind_here, bind_eq e2, bind_eq e3, bind_eq e4, bind_eq (cutErr_eq e8)] at h
  simp only [Option.some.injEq, hne, if_false] at h
  rw [bind_ok] at h
  obtain ⟨es, y, h6, h⟩ := h
  obtain rfl := entries_jam h3 hX hF total h6
  rw [bind_eq hc, bind_ok] at h
  obtain ⟨a, y, h7, h⟩ := h
  unfold tailP tailText at h7
  simp only [Option.isSome_none, Bool.false_eq_true, if_false] at h7
  rw [bind_eq hbt, bind_ok] at h7
  obtain ⟨t, y', h8, h7⟩ := h7
  obtain ⟨rfl, rfl⟩ := pure_ok.mp h7
  have : y = X ++ F := by
    unfold peek at h8
    split at h8 <;> cases h8
    rfl
  subst this
  rw [bind_eq hXF.solid.nodeSpace0, bind_here] at h
  have := (pure_ok.mp h).2
  rw [this]
  exact hXF

/-- A node with a bad name. -/
theorem jam_name {ty : Option Str} {tt nt Y : Str} (h1 : TyTok ty tt) (h2 : StrBad nt) : Jam (tt ++ (nt ++ Y)) := by
  intro total n z h
  have hs := h1.starts (h2.starts.append Y)
  obtain ⟨e1, e2⟩ := hs.notEnd
  obtain ⟨o, q1, af, e3, e4, e5⟩ := h1.parse (h2.starts.append Y) (h2.paren _) total
  rw [baseNode_unfold] at h
  unfold baseNodeF at h
  rw [bind_eq e1, bind_here, bind_eq e2, bind_eq e3, bind_eq e4] at h
  exact absurd h ((Fatal.bind (Fatal.cutErr (identifier_bad (h2.string Y) total))).not_ok _ _)

/-- A node with a bad annotation. -/
theorem jam_ty {tt Y : Str} (h1 : StrBad tt) : Jam ('(' :: (tt ++ Y)) := by
  intro total n z h
  have hs : Starts ('(' :: (tt ++ Y)) := ⟨_, _, rfl, by simp [Start]⟩
  obtain ⟨e1, e2⟩ := hs.notEnd
  rw [baseNode_unfold] at h
  unfold baseNodeF at h
  rw [bind_eq e1, bind_here, bind_eq e2] at h
  exact absurd h ((Fatal.bind (Fatal.opt (tyP_bad h1 total))).not_ok _ _)

/-! ### Documents with blank decoration -/

mutual
/-- The decoration of the node is blank, and its names and values are read back or
cannot be read. -/
inductive NodeFrame : Node → Prop
  | mk {ty : Option Ident} {name : Ident} {es : List Entry} {ch : Option Document} {format : Option NodeFmt}
      {span : Span} (h1 : ∀ t, ty = some t → StrTok t.value t.display ∨ StrBad t.display)
      (h2 : StrTok name.value name.display ∨ StrBad name.display)
      (h3 : ∀ e ∈ es, EntFrame e) (h4 : ∀ f, format = some f → FmtPlain f) (h5 : ∀ d, ch = some d → DocFrame d) :
      NodeFrame (.mk ty name es ch format span)
/-- The same for a document; all nodes but the last end with a newline. -/
inductive DocFrame : Document → Prop
  | mk {ns : List Node} {format : Option DocFmt} {span : Span}
      (h1 : ∀ f, format = some f → (∀ c ∈ f.leading, Blank c) ∧ ∀ c ∈ f.trailing, Blank c)
      (h2 : ∀ n ∈ ns, NodeFrame n) (h3 : ∀ n ∈ ns.dropLast, Ended n) : DocFrame (.mk ns format span)
end

theorem NodeFrame.blank {n : Node} (h : NodeFrame n) (indent : Nat) :
    (∀ c ∈ n.leadText indent, Blank c) ∧ ∀ c ∈ n.afterText, Blank c := by
  obtain ⟨h1, h2, h3, h4, h5⟩ := h
  rename_i ty name es ch format span
  cases format with
  | none => exact ⟨blank_spaces indent, by rintro c ⟨⟩⟩
  | some f => exact ⟨(h4 f rfl).leading, (h4 f rfl).after⟩

theorem NodeFrame.starts {n : Node} (h : NodeFrame n) (indent : Nat) : Starts (n.coreText indent) := by
  obtain ⟨h1, h2, h3, h4, h5⟩ := h
  rename_i ty name es ch format span
  unfold Node.coreText
  cases ty with
  | some t => exact ⟨_, _, rfl, by simp [Start]⟩
  | none =>
    rcases h2 with h2 | h2
    · exact h2.starts.append _
    · exact h2.starts.append _

omit [FloatIO] in
theorem ends_space {q : Str} (h : Starts q) : Ends (' ' :: q) := by
  obtain ⟨x, hx, _⟩ := (sp_one q h.solid).space1 (by simp)
  exact ends_of_space hx

/-- Entries with a bad one among them. -/
theorem framed_entries_split (hg : ∀ v, g (canonValue v) = g v) {es : List Entry} (h : ∀ e ∈ es, EntFrame e) :
    (∀ e ∈ es, EntPlain e) ∨ ∀ R, Ends R → ∃ ds T X F, EntsTok g ds T ∧ EntBad X ∧ Ends F ∧
      displayEntries es ++ R = T ++ ' ' :: (X ++ F) := by
  have e0 : ∀ {e : Entry} {es : List Entry}, EntFrame e → displayEntries (e :: es) = ' ' :: (e.display ++ displayEntries es) := by
    intro e es h
    simp [displayEntries, h.format]
  have st : ∀ {e : Entry}, EntFrame e → Starts e.display := by
    intro e h
    rcases h.split with h | h
    · exact (h.tok hg).1
    · exact h.1
  induction es with
  | nil => exact Or.inl (by rintro _ ⟨⟩)
  | cons e es ih =>
    have he := h e (by simp)
    rcases he.split with h1 | h1
    · rcases ih fun x hx => h x (by simp [hx]) with ih | ih
      · refine Or.inl fun x hx => ?_
        rcases List.mem_cons.mp hx with rfl | hx
        · exact h1
        · exact ih x hx
      · refine Or.inr fun R hR => ?_
        obtain ⟨ds, T, X, F, i1, i2, i3, i4⟩ := ih R hR
        refine ⟨_, _, X, F, EntsTok.cons (ELead.space sp_one (by simp)) (h1.tok hg) i1, i2, i3, ?_⟩
        rw [e0 he]
        simp [i4]
    · refine Or.inr fun R hR => ⟨[], [], e.display, displayEntries es ++ R, .nil, h1, ?_, by rw [e0 he]; simp⟩
      cases es with
      | nil => exact hR
      | cons e' es =>
        rw [e0 (h e' (by simp)), List.cons_append, List.append_assoc]
        exact ends_space ((st (h e' (by simp))).append _)

/-- A node that is read, in front of a text that is not read as nodes. -/
theorem blocked_term {B W T r : Str} {d : SNode α} (hB : BodyTok g d B) (hW : Term W) (hT : Starts T)
    (h : BlockedItems (T ++ r)) : BlockedItems (B ++ (W ++ (T ++ r))) := by
  intro total p L0 hp a q ns q1 u q2 L' x h1 h2 h3 h4
  have hs := (hT.append r).solid
  obtain ⟨l, q', n', h5, h6, _⟩ := nodeF_inv h1
  rw [hp] at h5
  injection h5 with _ e
  subst e
  obtain ⟨n, hn, _⟩ := hB.2 total _ (hW.nodeEnd hs)
  rw [hn] at h6
  injection h6 with _ e
  subst e
  obtain ⟨y, L1, h7, _, h8⟩ := hW total _ hs
  cases h2 with
  | nil h => rw [h7] at h; cases h
  | stop h _ hp' =>
    rw [opt_some h7] at h3
    injection h3 with _ e
    subst e
    rw [h8] at h4
    injection h4 with _ e
    subst e
    exact not_docEnd (hT.append r)
  | cons h _ hp' ht =>
    rw [h7] at h
    injection h with _ e
    subst e
    exact h total _ _ h8 _ _ _ _ _ _ _ _ hp' ht h3 h4

theorem Starts.terminator {z : Str} (h : Starts z) : nodeTerminator z = .back :=
  (Next.facts (Or.inl h)).2.2.1

/-- A node that the parser does not get past. -/
theorem Jam.blocked {X : Str} (h : Jam X) : BlockedItems X := by
  intro total p L0 hp a q ns q1 u q2 L' x h1 h2 h3 h4
  obtain ⟨l, q', n', h5, h6, _⟩ := nodeF_inv h1
  rw [hp] at h5
  injection h5 with _ e
  subst e
  have hq := h total _ _ h6
  have h9 : ∀ {q1}, q1 = q → opt nodeTerminator q1 = .ok u q2 → ¬ DocEnd x := by
    rintro _ rfl h3
    rw [opt_none hq.terminator] at h3
    injection h3 with _ e
    subst e
    have h5 := Lead.nil total _ hq.solid
    rw [List.nil_append, h4] at h5
    injection h5 with _ e
    subst e
    exact not_docEnd hq
  cases h2 with
  | nil h => exact h9 rfl h3
  | stop h _ hp' => rw [hq.terminator] at h; cases h
  | cons h _ hp' ht => rw [hq.terminator] at h; cases h

/-- Nodes one after the other, not all of which are read. -/
theorem nodes_split (hg : ∀ v, g (canonValue v) = g v) {indent : Nat} {trail : Str} (ht : ∀ c ∈ trail, Blank c) :
    ∀ {ns : List Node}, (∀ n ∈ ns, NodeFrame n) →
    (∀ n ∈ ns, NodePlain n ∨ ∀ w r, WSp w → NodeEnd r → Jam (n.coreText indent ++ (w ++ r))) →
    (∀ n ∈ ns.dropLast, Ended n) →
    (∀ n ∈ ns, NodePlain n) ∨ ∃ T, nodesStringify ns indent ++ trail = firstLead indent ns ++ T ∧ Starts T ∧
      ∀ r, DocEnd r → BlockedItems (T ++ r)
  | [], _, _, _ => Or.inl (by rintro _ ⟨⟩)
  | n :: ns, hf, h, he => by
    have hn := hf n (by simp)
    have hi : (∀ m ∈ ns, NodePlain m) ∨ ∃ T, nodesStringify ns indent ++ trail = firstLead indent ns ++ T ∧ Starts T ∧
        ∀ r, DocEnd r → BlockedItems (T ++ r) := by
      refine nodes_split hg ht (fun m hm => hf m (by simp [hm])) (fun m hm => h m (by simp [hm])) fun m hm => he m ?_
      cases ns with
      | nil => cases hm
      | cons m' ns => rw [List.dropLast_cons_cons, List.mem_cons]; exact Or.inr hm
    have e0 : nodesStringify (n :: ns) indent ++ trail = n.leadText indent ++ (n.coreText indent ++ (n.afterText ++
        (nodesStringify ns indent ++ trail))) := by
      rw [nodesStringify, Node.stringify_split]
      simp
    have gap : ∀ {m : Node} {ms : List Node}, ns = m :: ms → Gap (n.afterText ++ m.leadText indent) := by
      intro m ms e
      subst e
      refine Gap.blank (fun c hc => ?_) ?_
      · rcases List.mem_append.mp hc with hc | hc
        · exact (hn.blank 0).2 c hc
        · exact ((hf m (by simp)).blank indent).1 c hc
      · obtain ⟨c, hc, hc'⟩ := he n (by simp [List.dropLast])
        exact ⟨c, by simp [hc], hc'⟩
    rcases h n (by simp) with hp | hj
    · rcases hi with hi | ⟨T, e1, hT, hb⟩
      · refine Or.inl fun m hm => ?_
        rcases List.mem_cons.mp hm with rfl | hm
        · exact hp
        · exact hi m hm
      · right
        cases ns with
        | nil =>
          exfalso
          rw [nodesStringify, firstLead, List.nil_append, List.nil_append] at e1
          obtain ⟨c, q, e2, hc⟩ := hT
          exact hc.facts.1 (ht c (by rw [e1, e2]; simp))
        | cons m ms =>
          obtain ⟨w, W, e2, hw, hW⟩ := gap rfl
          have e3 : nodesStringify (n :: m :: ms) indent ++ trail =
              n.leadText indent ++ ((n.coreText indent ++ w) ++ (W ++ T)) := by
            rw [e0, e1]
            simp only [firstLead]
            rw [← List.append_assoc n.afterText, e2]
            simp
          refine ⟨_, e3, ((hn.starts indent).append _).append _, fun r hr => ?_⟩
          have := blocked_term (NodePlain.core hg indent n hp w hw) hW hT (hb r hr)
          simpa using this
    · refine Or.inr ⟨_, e0, (hn.starts indent).append _, fun r hr => ?_⟩
      rw [List.append_assoc]
      apply Jam.blocked
      cases ns with
      | nil =>
        have : Fin (n.afterText ++ trail) := Fin.blank fun c hc => by
          rcases List.mem_append.mp hc with hc | hc
          · exact (hn.blank 0).2 c hc
          · exact ht c hc
        obtain ⟨w, W, e2, hw, hW⟩ := this
        have e3 : (n.afterText ++ (nodesStringify [] indent ++ trail)) ++ r = w ++ (W ++ r) := by
          rw [nodesStringify, List.nil_append, e2, List.append_assoc]
        rw [e3]
        refine hj w (W ++ r) hw ?_
        rcases hW with rfl | hW
        · exact hr.nodeEnd
        · exact hW.nodeEnd hr.solid
      | cons m ms =>
        obtain ⟨w, W, e2, hw, hW⟩ := gap rfl
        have e4 : nodesStringify (m :: ms) indent ++ trail = m.leadText indent ++ (m.coreText indent ++ (m.afterText ++
            (nodesStringify ms indent ++ trail))) := by
          rw [nodesStringify, Node.stringify_split]
          simp
        have e3 : (n.afterText ++ (nodesStringify (m :: ms) indent ++ trail)) ++ r =
            w ++ (W ++ (m.coreText indent ++ (m.afterText ++ (nodesStringify ms indent ++ trail)) ++ r)) := by
          rw [e4, ← List.append_assoc n.afterText, e2]
          simp
        rw [e3]
        exact hj w _ hw (hW.nodeEnd ((((hf m (by simp)).starts indent).append _).append r).solid)

/-- A document whose nodes are not read. -/
theorem blocked_doc {L T r : Str} (hL : Lead L) (hs : Starts T) (hb : BlockedItems (T ++ r)) : Blocked (L ++ (T ++ r)) := by
  intro total d x h
  obtain ⟨lead, s1, ns', s2, o, s3, trail, g1, g2, g3, g4, _⟩ := nodesF_inv h
  have g5 := hL total _ (hs.append r).solid
  rw [g5] at g1
  injection g1 with _ e
  subst e
  have g6 : leadingItems (baseNode total) (T ++ r) = .ok [] (T ++ r) := Lead.nil total _ (hs.append r).solid
  rcases sep0_ok.mp g2 with ⟨k1, rfl, rfl⟩ | ⟨a, q, as, k1, k2, rfl⟩
  · have := nodeF_back (baseNode_back total) g6 k1
    exact absurd this (not_docEnd (hs.append r))
  · exact hb total _ _ g6 _ _ _ _ _ _ _ _ k1 (sepMore_inv (Strict.nodeF (Strict.baseNode total)).sfx k2) g3 g4

omit [FloatIO] in
theorem ends_brace (q : Str) : Ends ('{' :: q) := ends_lit (by simp) q

mutual
/-- A node with blank decoration is read back, or the parser does not get past it. -/
theorem NodeFrame.split (hg : ∀ v, g (canonValue v) = g v) (indent : Nat) : ∀ (n : Node), NodeFrame n →
    NodePlain n ∨ ∀ w r, WSp w → NodeEnd r → Jam (n.coreText indent ++ (w ++ r))
  | .mk ty name es ch format span, h => by
    cases h with
    | mk h1 h2 h3 h4 h5 =>
      have hc : (∀ d, ch = some d → DocPlain d) ∨ ∃ d, ch = some d ∧ ∀ l t : Str, (∀ c ∈ l, Blank c) → (∀ c ∈ t, Blank c) →
          ∀ r, DocEnd r → Blocked ((l ++ (d.stringify (indent + 4) ++ t)) ++ r) := by
        cases ch with
        | none => exact Or.inl (by rintro _ ⟨⟩)
        | some d =>
          rcases DocFrame.split hg (indent + 4) d (h5 d rfl) with hd | hd
          · exact Or.inl (by rintro _ ⟨⟩; exact hd)
          · exact Or.inr ⟨d, rfl, hd⟩
      have hb : WSp (beforeText es format) := by
        cases format with
        | some f => exact WSp.spaces (h4 f rfl).before
        | none =>
          simp only [beforeText]
          split
          · exact WSp.spaces (by simp [space_lit])
          · exact WSp.nil
      have ec : ∀ X, (Node.mk ty name es ch format span).coreText indent ++ X = tyText ty ++ (name.display ++
          (displayEntries es ++ (childrenStringify ch (beforeText es format) indent ++ X))) := by
        intro X
        simp [Node.coreText, Node.ty, Node.name, Node.entries, Node.children, Node.format]
      have bad : ∀ {P : Prop}, (∀ w r, WSp w → NodeEnd r → Jam (tyText ty ++ (name.display ++
          (displayEntries es ++ (childrenStringify ch (beforeText es format) indent ++ (w ++ r)))))) →
          P ∨ ∀ w r, WSp w → NodeEnd r → Jam ((Node.mk ty name es ch format span).coreText indent ++ (w ++ r)) := by
        intro P h
        refine Or.inr fun w r hw hr => ?_
        rw [ec]
        exact h w r hw hr
      have ht : (∀ t, ty = some t → StrTok t.value t.display) ∨ ∃ t, ty = some t ∧ StrBad t.display := by
        cases ty with
        | none => exact Or.inl (by rintro _ ⟨⟩)
        | some t =>
          rcases h1 t rfl with h1 | h1
          · exact Or.inl (by rintro _ ⟨⟩; exact h1)
          · exact Or.inr ⟨t, rfl, h1⟩
      rcases ht with ht | ⟨t, rfl, ht⟩
      case inr =>
        refine bad fun w r hw hr => ?_
        rw [tyText, List.cons_append, List.append_assoc]
        exact jam_ty ht
      have ht' : TyTok (ty.map Ident.value) (tyText ty) := by
        cases ty with
        | none => exact .none
        | some t => exact TyTok.some (ht t rfl) Sp.nil Sp.nil Sp.nil
      rcases h2 with h2 | h2
      case inr => exact bad fun w r hw hr => jam_name ht' h2
      have hmid : ∀ w r, WSp w → NodeEnd r → Ends (childrenStringify ch (beforeText es format) indent ++ (w ++ r)) := by
        intro w r hw hr
        cases ch with
        | none => exact (hw r hr.wall.nodeSpace).ends fun _ => hr.wall.ends
        | some d =>
          rw [childrenStringify]
          simp only [List.append_assoc, List.cons_append, List.nil_append]
          exact (hb _ (solid_lit (by simp) _).nodeSpace).ends fun _ => ends_brace _
      rcases framed_entries_split hg h3 with h3' | h3'
      case inr =>
        refine bad fun w r hw hr => ?_
        obtain ⟨ds, T, X, F, i1, i2, i3, i4⟩ := h3' _ (hmid w r hw hr)
        rw [i4]
        exact jam_entry ht' h2 i1 i2 i3
      rcases hc with hc | ⟨d, rfl, hd⟩
      · exact Or.inl (.mk ht h2 h3' h4 hc)
      · refine bad fun w r hw hr => ?_
        rw [childrenStringify]
        simp only [List.append_assoc, List.cons_append, List.nil_append]
        intro total n z hn
        refine absurd hn (baseNode_blocked ht' h2 (entsTok_plain hg h3') (Before.space hb _ (Or.inr (Or.inl ⟨_, rfl⟩))) ?_ total n z)
        have := hd (if d.format.isNone then ['\n'] else []) (if d.format.isNone then spaces indent else [])
          (by intro c hc; split at hc
              · rw [List.mem_singleton] at hc; rw [hc]; exact Or.inr (by decide)
              · cases hc)
          (by intro c hc; split at hc
              · exact blank_spaces _ c hc
              · cases hc) ('}' :: (w ++ r)) (Or.inr ⟨_, rfl⟩)
        simpa only [List.append_assoc] using this
/-- A document with blank decoration is read back, or the parser does not get through it. -/
theorem DocFrame.split (hg : ∀ v, g (canonValue v) = g v) (indent : Nat) : ∀ (d : Document), DocFrame d →
    DocPlain d ∨ ∀ l t : Str, (∀ c ∈ l, Blank c) → (∀ c ∈ t, Blank c) →
      ∀ r, DocEnd r → Blocked ((l ++ (d.stringify indent ++ t)) ++ r)
  | .mk ns format span, h => by
    cases h with
    | mk h1 h2 h3 =>
      obtain ⟨dl, dt, e, hdl, hdt⟩ : ∃ dl dt, (Document.mk ns format span).stringify indent =
          dl ++ (nodesStringify ns indent ++ dt) ∧ (∀ c ∈ dl, Blank c) ∧ ∀ c ∈ dt, Blank c := by
        cases format with
        | none => exact ⟨[], [], by simp [Document.stringify], by rintro _ ⟨⟩, by rintro _ ⟨⟩⟩
        | some f => exact ⟨f.leading, f.trailing, by simp [Document.stringify], (h1 f rfl).1, (h1 f rfl).2⟩
      have hs := NodeFrame.splits hg indent ns h2
      by_cases hp : ∀ n ∈ ns, NodePlain n
      · exact Or.inl (.mk h1 hp h3)
      · refine Or.inr fun l t hl ht r hr => ?_
        have hdt' : ∀ c ∈ dt ++ t, Blank c := by
          intro c hc
          rcases List.mem_append.mp hc with hc | hc
          · exact hdt c hc
          · exact ht c hc
        obtain ⟨T, e1, hT, hb⟩ := (nodes_split hg hdt' h2 hs h3).resolve_left hp
        have e2 : (l ++ ((Document.mk ns format span).stringify indent ++ t)) ++ r =
            (l ++ (dl ++ firstLead indent ns)) ++ (T ++ r) := by
          rw [e]
          simp only [List.append_assoc] at e1 ⊢
          have e3 := congrArg (· ++ r) e1
          simp only [List.append_assoc] at e3
          rw [e3]
        rw [e2]
        refine blocked_doc (Lead.blank fun c hc => ?_) hT (hb r hr)
        rcases List.mem_append.mp hc with hc | hc
        · exact hl c hc
        rcases List.mem_append.mp hc with hc | hc
        · exact hdl c hc
        · cases ns with
          | nil => cases hc
          | cons n ns => exact ((h2 n (by simp)).blank indent).1 c hc
theorem NodeFrame.splits (hg : ∀ v, g (canonValue v) = g v) (indent : Nat) : ∀ (ns : List Node), (∀ n ∈ ns, NodeFrame n) →
    ∀ n ∈ ns, NodePlain n ∨ ∀ w r, WSp w → NodeEnd r → Jam (n.coreText indent ++ (w ++ r))
  | [], _, _, hn => by cases hn
  | n :: ns, h, m, hm => by
    rcases List.mem_cons.mp hm with e | hm
    · rw [e]; exact NodeFrame.split hg indent n (h n (by simp))
    · exact NodeFrame.splits hg indent ns (fun x hx => h x (by simp [hx])) m hm
end

/-! ### Which strings and values are read back -/

theorem strTok_write_iff {s : Str} : StrTok s (writeString s) ↔ Writable s :=
  ⟨fun h => stringP_write_inv (h [] Ends.nil), StrTok.write⟩

theorem valTok_write_iff [LawfulFloatIO] {v : Value} : ValTok (canonValue v) v.display ↔ WritableValue v :=
  ⟨fun h => Classical.byContradiction fun hn => (ValBad.write hn).value [] Ends.nil _ _ (h.2 [] Ends.nil).2.1, ValTok.write⟩

theorem str_frame (s : Str) : StrTok s (writeString s) ∨ StrBad (writeString s) :=
  (Classical.em (Writable s)).imp StrTok.write StrBad.write

theorem val_frame [LawfulFloatIO] (v : Value) : ValTok (canonValue v) v.display ∨ ValBad v.display :=
  (Classical.em (WritableValue v)).imp ValTok.write ValBad.write

/-! ### Which documents are read back -/

/-- The names, annotations and value of the entry are read back. -/
structure EntGood (e : Entry) : Prop where
  name : ∀ n, e.name = some n → StrTok n.value n.display
  ty : ∀ n, e.ty = some n → StrTok n.value n.display
  value : ValTok (canonValue e.value) e.value.display

mutual
/-- The names, annotations and values of the node are read back. -/
inductive NodeGood : Node → Prop
  | mk {ty : Option Ident} {name : Ident} {es : List Entry} {ch : Option Document} {format : Option NodeFmt}
      {span : Span} (h1 : ∀ t, ty = some t → StrTok t.value t.display) (h2 : StrTok name.value name.display)
      (h3 : ∀ e ∈ es, EntGood e) (h4 : ∀ d, ch = some d → DocGood d) : NodeGood (.mk ty name es ch format span)
/-- The same for a document. -/
inductive DocGood : Document → Prop
  | mk {ns : List Node} {format : Option DocFmt} {span : Span} (h : ∀ n ∈ ns, NodeGood n) : DocGood (.mk ns format span)
end

mutual
theorem NodePlain.good : ∀ {n : Node}, NodePlain n → NodeGood n
  | _, .mk h1 h2 h3 _ h5 => .mk h1 h2 (fun e he => ⟨(h3 e he).name, (h3 e he).ty, (h3 e he).value⟩)
      fun d hd => DocPlain.good (h5 d hd)
theorem DocPlain.good : ∀ {d : Document}, DocPlain d → DocGood d
  | _, .mk _ h2 _ => .mk fun n hn => NodePlain.good (h2 n hn)
end

mutual
theorem NodeFrame.plain : ∀ {n : Node}, NodeFrame n → NodeGood n → NodePlain n
  | _, .mk _ _ h3 h4 h5, .mk g1 g2 g3 g4 =>
    .mk g1 g2 (fun e he => ⟨(h3 e he).format, (g3 e he).name, (g3 e he).ty, (g3 e he).value⟩) h4
      fun d hd => DocFrame.plain (h5 d hd) (g4 d hd)
theorem DocFrame.plain : ∀ {d : Document}, DocFrame d → DocGood d → DocPlain d
  | _, .mk h1 h2 h3, .mk h => .mk h1 (fun n hn => NodeFrame.plain (h2 n hn) (h n hn)) h3
end

/-- The printed document does not start with a byte order mark. -/
theorem DocFrame.not_bom {d : Document} (h : DocFrame d) (q : Str) : d.display ≠ Char.ofNat 0xFEFF :: q := by
  have hblank : ∀ {l : Str}, (∀ c ∈ l, Blank c) → ∀ {x : Str}, (∀ q, x ≠ Char.ofNat 0xFEFF :: q) →
      ∀ q, l ++ x ≠ Char.ofNat 0xFEFF :: q := by
    intro l hl x hx q e
    cases l with
    | nil => exact hx q e
    | cons c l =>
      have e1 := (List.cons.inj e).1
      have := hl c (by simp)
      rw [e1] at this
      exact absurd this (by decide)
  cases h with
  | @mk ns format span h1 h2 h3 =>
    have hn : ∀ t : Str, (∀ c ∈ t, Blank c) → ∀ q, nodesStringify ns 0 ++ t ≠ Char.ofNat 0xFEFF :: q := by
      intro t ht
      cases ns with
      | nil =>
        have := hblank ht (x := []) (by rintro q ⟨⟩)
        rw [List.append_nil] at this
        exact this
      | cons n ns =>
        intro q
        unfold nodesStringify
        rw [Node.stringify_split]
        simp only [List.append_assoc]
        refine hblank ((h2 n (by simp)).blank 0).1 (fun q e => ?_) q
        obtain ⟨c, x, hc, hs⟩ := (h2 n (by simp)).starts 0
        rw [hc] at e
        have e1 := (List.cons.inj e).1
        rw [e1] at hs
        unfold Start at hs
        exact absurd hs (by decide)
    unfold Document.display
    cases format with
    | none => have := hn [] (by rintro _ ⟨⟩) q; simpa [Document.stringify] using this
    | some f =>
      have := hblank (h1 f rfl).1 (hn _ (h1 f rfl).2) q
      simpa [Document.stringify] using this

/-- A document with blank decoration is accepted, with the same data, or not accepted. -/
theorem DocFrame.parse (hg : ∀ v, g (canonValue v) = g v) {d : Document} (h : DocFrame d) :
    (DocGood d ∧ ∃ d', Document.parse d.display = .ok d' ∧ semDoc g d' = semDoc g d) ∨
      (¬ DocGood d ∧ ∀ d', Document.parse d.display ≠ .ok d') := by
  by_cases hd : DocGood d
  · exact Or.inl ⟨hd, (h.plain hd).parse hg⟩
  · refine Or.inr ⟨hd, fun d' e => ?_⟩
    have hb := (DocFrame.split hg 0 d h).resolve_left (fun hp => hd hp.good) [] [] (by rintro _ ⟨⟩) (by rintro _ ⟨⟩) []
      (Or.inl rfl)
    simp only [List.nil_append, List.append_nil] at hb
    rcases (documentP_inv (tryParse_ok.mp e)).2 with ⟨s1, _, e1, _⟩ | ⟨_, e1⟩
    · exact h.not_bom s1 e1
    · exact hb _ _ _ e1 (Or.inl rfl)

end

end Kdl
