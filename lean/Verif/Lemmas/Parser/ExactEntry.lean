import Verif.Lemmas.Parser.Swap
/-
What the parser accepts as an entry is in the grammar.
-/

namespace Kdl
open Spec

theorem nlImp_append (t r : Str) : NlImp t (t ++ r) := by
  rintro q rfl
  exact ⟨q ++ r, rfl⟩

theorem Spec.NSpace.cut {t r w : Str} (h : NSpace (t ++ r) w) (ht : t ≠ []) : NSpace t w :=
  h.swapH (by simp [ht]) (nlImp_append t r)

theorem Spec.LSpace.cut {t r w : Str} (h : LSpace (t ++ r) w) (ht : t ≠ []) : LSpace t w :=
  h.swapH (by simp [ht]) (nlImp_append t r)

theorem takeSpace_inv {s w r : Str} (h : takeP nodeSpace0 s = .ok w r) : s = w ++ r ∧ NSpace r w ∧ nodeSpace r = .back := by
  obtain ⟨rfl, a, h1⟩ := takeP_inv Sfx.nodeSpace0 h
  obtain ⟨w', e, h2, h3⟩ := nodeSpace0_iff.mp h1
  have := List.append_cancel_right e
  subst this
  exact ⟨rfl, h2, h3⟩

theorem nodeSpace0_none {w r : Str} (h : nodeSpace (w ++ r) = .back) (hw : NSpace r w) (hr : nodeSpace r = .back) : w = [] := by
  by_cases hne : w = []
  · exact hne
  · obtain ⟨q, h1, _⟩ := (hw.space0 hr).space1 hne
    rw [h] at h1; cases h1

theorem nodeSpace1_inv {s r : Str} {u : Unit} (h : nodeSpace1 s = .ok u r) :
    ∃ w, s = w ++ r ∧ NSpace r w ∧ w ≠ [] ∧ nodeSpace r = .back := by
  obtain ⟨w, hne, e⟩ := Strict.nodeSpace1 _ _ _ h
  obtain ⟨l, h1⟩ := void_ok.mp h
  obtain ⟨a, q, as, h2, h3, rfl⟩ := rep1_ok.mp h1
  obtain ⟨t, ht, e'⟩ := Strict.nodeSpace _ _ _ h2
  have h4 : rep0 nodeSpace s = .ok (a :: as) r := rep0_cons h2 (by rw [e']; have := List.length_pos_iff.mpr ht; rw [List.length_append]; omega) h3
  obtain ⟨w', e2, h5, h6⟩ := nodeSpace0_iff.mp (void_eq h4 : nodeSpace0 s = .ok () r)
  rw [e] at e2
  have := List.append_cancel_right e2
  subst this
  exact ⟨w, e, h5, hne, h6⟩

theorem nodeSpace1_back {s : Str} (h : nodeSpace s = .back) : nodeSpace1 s = .back := void_back (rep1_back h)

section
variable [FloatIO]

theorem valueBody_exact {s r : Str} {v : Value} (h : valueBody s = .ok v r) :
    ∃ t, t ≠ [] ∧ s = t ++ r ∧ ValText t v ∧ (Ends r ∨ (t, v) ∈ keywords) := by
  obtain ⟨t0, hne, e0⟩ := Strict.valueBody _ _ _ h
  have key : ∃ t, s = t ++ r ∧ ValText t v ∧ (Ends r ∨ (t, v) ∈ keywords) := by
    unfold valueBody at h
    rcases alt_ok.mp h with h | ⟨_, h⟩
    · obtain ⟨t, rfl, h1⟩ := keyword_inv h
      exact ⟨t, rfl, .keyword h1, Or.inr h1⟩
    · rcases alt_ok.mp h with h | ⟨_, h⟩
      · obtain ⟨t, rfl, h1, h2⟩ := number_iff.mp h
        exact ⟨t, rfl, .num h1, Or.inl h2⟩
      · rw [bind_ok] at h
        obtain ⟨x, q, h1, h2⟩ := h
        obtain ⟨rfl, rfl⟩ := pure_ok.mp h2
        obtain ⟨t, rfl, h1, h2⟩ := stringP_iff.mp h1
        exact ⟨t, rfl, .str h1, Or.inl h2⟩
  obtain ⟨t, e, h1, h2⟩ := key
  rw [e0] at e
  have := List.append_cancel_right e
  subst this
  exact ⟨t0, hne, e0, h1, h2⟩

omit [FloatIO] in
theorem identifier_exact {total : Nat} {s r : Str} {i : Ident} (h : identifier total s = .ok i r) :
    ∃ t, t ≠ [] ∧ s = t ++ r ∧ i.repr = some t ∧ StrText t i.value ∧ Ends r := by
  obtain ⟨t, hne, rfl, h1, _, h2⟩ := identifier_inv h
  obtain ⟨t', e, h3, h4⟩ := stringP_iff.mp h2
  have := List.append_cancel_right e
  subst this
  exact ⟨t, hne, rfl, h1, h3, h4⟩

omit [FloatIO] in
/-- A type annotation that the parser accepts. -/
theorem tyP_exact {total : Nat} {s r b a : Str} {i : Ident} (h : tyP total s = .ok (b, i, a) r) :
    ∃ it, s = '(' :: (b ++ (it ++ (a ++ ')' :: r))) ∧ i.repr = some it ∧ StrText it i.value ∧ NSpace it b ∧ NSpace [')'] a := by
  obtain ⟨s1, s2, s3, rfl, h1, h2, h3⟩ := tyP_inv h
  obtain ⟨rfl, hb, _⟩ := takeSpace_inv h1
  obtain ⟨it, hne, rfl, hr, hi, _⟩ := identifier_exact h2
  obtain ⟨rfl, ha, _⟩ := takeSpace_inv h3
  exact ⟨it, rfl, hr, hi, hb.cut hne, NSpace.cut (t := [')']) ha (by simp)⟩

theorem value_exact {total : Nat} {s r : Str} {e : Entry} (h : value total s = .ok e r) :
    ∃ tt vt, vt ≠ [] ∧ s = tt ++ (vt ++ r) ∧ TyText vt (e.ty.map Ident.value) tt ∧ ValText vt e.value ∧
      (Ends r ∨ (vt, e.value) ∈ keywords) ∧ e.name = none := by
  obtain ⟨s1, v, h1, rfl, h3, _, h4⟩ := value_inv h
  obtain ⟨vt, hne, rfl, hv, hr⟩ := valueBody_exact h1
  rcases h4 with ⟨_, rfl, h5, h6⟩ | ⟨b, i, a, q, after, h5, h6, h7, h8⟩
  · refine ⟨[], vt, hne, rfl, ?_, hv, hr, h3⟩
    rw [h5]
    exact .none
  · obtain ⟨it, rfl, _, hi, hb, ha⟩ := tyP_exact h5
    obtain ⟨rfl, hf, _⟩ := takeSpace_inv h6
    refine ⟨'(' :: (b ++ (it ++ (a ++ ')' :: after))), vt, hne, by simp, ?_, hv, hr, h3⟩
    rw [h7]
    exact .some hi hb ha (hf.cut hne)

theorem valEnd_of {vt : Str} {v : Value} {r : Str} (h : ValText vt v) (hr : Ends r ∨ (vt, v) ∈ keywords) :
    ValEnd false vt v ∧ (Ends r ∨ ValEnd true vt v) := ⟨h, hr⟩

/-- An entry without what precedes it. -/
theorem entryBody_exact {total : Nat} {s r : Str} {e : Entry} (h : entryBody total s = .ok e r) :
    ∃ t, t ≠ [] ∧ s = t ++ r ∧ EntryText (semEntry id e) t ∧ (Ends r ∨ EntryEnd true (semEntry id e) t) := by
  rcases entryBody_inv h with ⟨_, h⟩ | ⟨i, s1, h1, _, rfl, rfl⟩ | ⟨i, s1, ak, s2, ae, s3, v, h1, h2, h3, h4, rfl⟩
  · obtain ⟨tt, vt, hne, rfl, ht, hv, hr, hn⟩ := value_exact h
    obtain ⟨h1, h2⟩ := valEnd_of hv hr
    have e : semEntry id e = ⟨e.ty.map Ident.value, none, e.value⟩ := by simp [semEntry, hn]
    rw [e]
    exact ⟨tt ++ vt, by simp [hne], by simp, .arg ht h1, h2.imp_right fun h => .arg ht h⟩
  · obtain ⟨t, hne, rfl, _, hi, hr⟩ := identifier_exact h1
    exact ⟨t, hne, rfl, EntryEnd.arg (k := false) (tt := []) .none (.str hi : ValText t (.string i.value)), Or.inl hr⟩
  · obtain ⟨kt, hkne, rfl, _, hk, _⟩ := identifier_exact h1
    obtain ⟨rfl, hak, _⟩ := takeSpace_inv h2
    obtain ⟨rfl, hae, _⟩ := takeSpace_inv h3
    obtain ⟨tt, vt, hne, rfl, ht, hv, hr, hn⟩ := value_exact h4
    obtain ⟨h1, h2⟩ := valEnd_of hv hr
    have hak' : NSpace ['='] ak := NSpace.cut (t := ['=']) hak (by simp)
    have hae' : NSpace (tt ++ vt) ae := NSpace.cut (r := r) (by simpa using hae) (by simp [hne])
    refine ⟨_, ?_, ?_, EntryEnd.prop (k := false) hk hak' hae' ht h1, h2.imp_right fun h => .prop hk hak' hae' ht h⟩
    · simp [hkne]
    · simp

/-- What stands in front of an entry: like `EntryLead`, but possibly empty. -/
def LeadText (t w : Str) : Prop :=
  NSpace t w ∨ ∃ a S v, w = a ++ (S ++ v) ∧ NSpace S a ∧ SdEntries S ∧ NSpace t v ∧ v ≠ []

/-- A slashdashed entry. -/
def SdOne (k : Bool) (x : Str) : Prop :=
  (∃ b E d, x = '/' :: '-' :: (b ++ E) ∧ LSpace E b ∧ EntryEnd k d E) ∨
  ∃ b S w E d, x = '/' :: '-' :: (b ++ (S ++ (w ++ E))) ∧ LSpace S b ∧ SdEntries S ∧ NSpace E w ∧ w ≠ [] ∧ EntryEnd k d E

theorem SdOne.sd {k : Bool} {x : Str} (h : SdOne k x) : SdEnd k x := by
  rcases h with ⟨b, E, d, rfl, h1, h2⟩ | ⟨b, S, w, E, d, rfl, h1, h2, h3, h4, h5⟩
  · exact .one h1 h2
  · exact .nest h1 h2 h3 h4 h5

theorem SdOne.cons {k : Bool} {x w T : Str} (h : SdOne false x) (hw : NSpace T w) (hne : w ≠ []) (hT : SdEnd k T) :
    SdEnd k (x ++ (w ++ T)) := by
  rcases h with ⟨b, E, d, rfl, h1, h2⟩ | ⟨b, S, v, E, d, rfl, h1, h2, h3, h4, h5⟩
  · simpa using SdEnd.cons h1 h2 hw hne hT
  · simpa using SdEnd.nestCons h1 h2 h3 h4 h5 hw hne hT

/-- An entry with what precedes it, read from `s`. -/
def EntrySrc (s r : Str) (e : Entry) : Prop :=
  ∃ w t, s = w ++ (t ++ r) ∧ t ≠ [] ∧ LeadText t w ∧ EntryText (semEntry id e) t ∧ (Ends r ∨ EntryEnd true (semEntry id e) t) ∧
    ∃ f, e.format = some f ∧ f.leading = w ∧ e.display = w ++ t

theorem SdEnd.ne {k : Bool} {S : Str} (h : SdEnd k S) : S ≠ [] := by
  cases h <;> simp

theorem EntryEnd.starts {k : Bool} {d : SEntry Value} {t : Str} (h : EntryEnd k d t) : Starts t := (EntTok.text h.entry).1

theorem sdEntry_exact {total : Nat} {s r : Str} {e : Entry}
    (ih : ∀ x, x.length < s.length → ∀ e r, nodeEntry total x = .ok e r → EntrySrc x r e)
    (h : (do slashdash; nodeEntry total : P Entry) s = .ok e r) :
    ∃ x, s = x ++ r ∧ SdOne false x ∧ (Ends r ∨ SdOne true x) := by
  obtain ⟨_, q, h1, h2⟩ := bind_ok.mp h
  obtain ⟨b, rfl, hb, hq⟩ := slashdash_inv h1
  have hns := (lineSpace_back_iff.mp hq).1
  obtain ⟨w, t, e1, hne, hl, ht, hr, _⟩ := ih q (by simp; omega) _ _ h2
  subst e1
  have hst := EntryEnd.starts ht
  rcases hl with hl | ⟨a, S, v, rfl, ha, hS, hv, hvne⟩
  · have hw : w = [] := by
      by_cases hw : w = []
      · exact hw
      · obtain ⟨_, h3, _⟩ := (hl.sp hne _ (hst.append r).solid).space1 hw
        rw [hns] at h3; cases h3
    subst hw
    have hb' : LSpace t b := LSpace.cut hb hne
    exact ⟨'/' :: '-' :: (b ++ t), by simp, Or.inl ⟨b, t, _, rfl, hb', ht⟩, hr.imp_right fun h => Or.inl ⟨b, t, _, rfl, hb', h⟩⟩
  · obtain ⟨x, rfl⟩ := SdEnd.slash hS
    have hw : a = [] := by
      by_cases hw : a = []
      · exact hw
      · have h4 : nodeSpace ('/' :: '-' :: (x ++ (v ++ (t ++ r)))) = .back := (slash_facts (by decide) _).1
        have h5 : NSpace ('/' :: '-' :: (x ++ (v ++ (t ++ r)))) a := ha.swapH (by simp) (by rintro q ⟨⟩)
        obtain ⟨_, h3, _⟩ := (h5.space0 h4).space1 hw
        simp only [List.append_assoc, List.cons_append] at hns h3
        rw [hns] at h3; cases h3
    subst hw
    have hb' : LSpace ('/' :: '-' :: x) b := LSpace.cut (r := v ++ (t ++ r)) (by simpa using hb) (by simp)
    exact ⟨'/' :: '-' :: (b ++ ('/' :: '-' :: x ++ (v ++ t))), by simp,
      Or.inr ⟨b, _, v, t, _, rfl, hb', hS, hv, hvne, ht⟩,
      hr.imp_right fun h => Or.inr ⟨b, _, v, t, _, rfl, hb', hS, hv, hvne, h⟩⟩

theorem sdMore_exact {total : Nat} {q r : Str} {l : List Entry}
    (h : SepMore (do slashdash; nodeEntry total : P Entry) nodeSpace1 q l r)
    (ih : ∀ x, x.length < q.length → ∀ e r, nodeEntry total x = .ok e r → EntrySrc x r e) :
    q = r ∨ ∃ w T, q = w ++ (T ++ r) ∧ NSpace T w ∧ w ≠ [] ∧ SdEntries T ∧ (Ends r ∨ SdEnd true T) := by
  induction h with
  | nil _ => exact Or.inl rfl
  | stop _ _ _ => exact Or.inl rfl
  | cons h hl hp ht ih2 =>
    right
    obtain ⟨w, rfl, hw, hne, _⟩ := nodeSpace1_inv h
    obtain ⟨x, rfl, h1, h2⟩ := sdEntry_exact (fun y hy => ih y (by omega)) hp
    have hx := SdEnd.ne h1.sd
    rcases ih2 (fun y hy => ih y (by simp; omega)) with rfl | ⟨w', T, rfl, hw', hne', hT, hr⟩
    · exact ⟨w, x, rfl, hw.cut hx, hne, h1.sd, h2.imp_right SdOne.sd⟩
    · refine ⟨w, x ++ (w' ++ T), by simp, ?_, hne, h1.cons hw' hne' hT, hr.imp_right (h1.cons hw' hne')⟩
      have e : ∀ z, x ++ (w' ++ (T ++ z)) = (x ++ (w' ++ T)) ++ z := by simp
      rw [e] at hw
      exact hw.cut (by simp [hx])

theorem sdEntries_exact_aux {total : Nat} {s r : Str} {u : Unit}
    (ih : ∀ x, x.length < s.length → ∀ e r, nodeEntry total x = .ok e r → EntrySrc x r e)
    (h : slashdashedEntries total s = .ok u r) : ∃ S, s = S ++ r ∧ SdEntries S ∧ (Ends r ∨ SdEnd true S) := by
  obtain ⟨l, h⟩ := void_ok.mp h
  obtain ⟨a, q, as, h1, h2, rfl⟩ := sep1_ok.mp h
  obtain ⟨x, rfl, h3, h4⟩ := sdEntry_exact ih h1
  have hsf : Sfx (do slashdash; nodeEntry total : P Entry) := by
    have := (Strict.nodeEntry total).sfx
    psolve
  rcases sdMore_exact (sepMore_inv hsf h2) (fun y hy => ih y (by simp; omega)) with rfl | ⟨w, T, rfl, hw, hne, hT, hr⟩
  · exact ⟨x, rfl, h3.sd, h4.imp_right SdOne.sd⟩
  · exact ⟨x ++ (w ++ T), by simp, h3.cons hw hne hT, hr.imp_right (h3.cons hw hne)⟩

theorem nodeEntry_exact {total : Nat} : ∀ (n : Nat) {s r : Str} {e : Entry}, s.length < n →
    nodeEntry total s = .ok e r → EntrySrc s r e := by
  intro n
  induction n with
  | zero => intro s r e h; omega
  | succ n ih =>
    intro s r e hn h
    obtain ⟨hd, f, hf, _⟩ := nodeEntry_text h
    rw [nodeEntry_unfold] at h
    obtain ⟨l, s1, e', h1, h2, rfl⟩ := nodeEntryF_inv h
    obtain ⟨t, hne, rfl, ht, hr⟩ := entryBody_exact h2
    obtain ⟨f', hf', _⟩ := entryBody_text h2
    have hl : s = l ++ (t ++ r) := entryLeadingF_text (Strict.nodeEntry total).sfx h1
    have hlt : LeadText t l := by
      unfold entryLeadingF at h1
      obtain ⟨e1, _, h1⟩ := takeP_ok.mp h1
      obtain ⟨_, q, h3, h4⟩ := bind_ok.mp h1
      obtain ⟨a, rfl, ha, hq⟩ := nodeSpace0_iff.mp h3
      rcases opt_ok.mp h4 with ⟨_, _, h4⟩ | ⟨_, rfl, _⟩
      · obtain ⟨_, q', h5, h6⟩ := bind_ok.mp h4
        obtain ⟨S, rfl, hS, _⟩ := sdEntries_exact_aux (fun x hx e r h => ih (by simp at hn hx; omega) h) h5
        obtain ⟨v, rfl, hv, hvne, _⟩ := nodeSpace1_inv h6
        have : l = a ++ (S ++ v) := by
          have : l ++ (t ++ r) = (a ++ (S ++ v)) ++ (t ++ r) := by rw [← hl]; simp
          exact List.append_cancel_right this
        exact Or.inr ⟨a, S, v, this, ha.cut (SdEnd.ne hS), hS, hv.cut hne, hvne⟩
      · have := List.append_cancel_right hl
        subst this
        exact Or.inl (ha.cut hne)
    refine ⟨l, t, hl, hne, hlt, ht, hr, { f' with leading := l }, by simp [hf'], rfl, ?_⟩
    rw [hl, ← List.append_assoc] at hd
    exact (List.append_cancel_right hd).symm

theorem entry_exact {total : Nat} {s r : Str} {e : Entry} (h : nodeEntry total s = .ok e r) : EntrySrc s r e :=
  nodeEntry_exact _ (Nat.lt_succ_self _) h

/-- Slashdashed entries that the parser accepts. -/
theorem sdEntries_exact {total : Nat} {s r : Str} {u : Unit} (h : slashdashedEntries total s = .ok u r) :
    ∃ S, s = S ++ r ∧ SdEntries S ∧ (Ends r ∨ SdEnd true S) :=
  sdEntries_exact_aux (fun _ _ _ _ h => entry_exact h) h

/-- Entries as they are written in the source. -/
inductive EntsSrc : List Entry → Str → Prop
  | nil : EntsSrc [] []
  | cons {e : Entry} {es : List Entry} {f : EntryFmt} {w t T : Str} (hf : e.format = some f) (hl : f.leading = w)
      (hd : e.display = w ++ t) (hw : EntryLead t w) (ht : EntryText (semEntry id e) t) (hT : EntsSrc es T) :
      EntsSrc (e :: es) (w ++ (t ++ T))

theorem EntsSrc.text {es : List Entry} {T : Str} (h : EntsSrc es T) :
    EntriesText (es.map (semEntry id)) T ∧ displayEntries es = T := by
  induction h with
  | nil => exact ⟨.nil, rfl⟩
  | cons hf hl hd hw ht _ ih =>
    exact ⟨.cons hw ht ih.1, by simp [displayEntries, hf, hd, ih.2]⟩

theorem LeadText.lead {t w : Str} (h : LeadText t w) {r q : Str} {u : Unit} (hp : nodeSpace1 (w ++ (t ++ r)) = .ok u q)
    (hs : Starts t) : EntryLead t w := by
  have start : ∀ {x : Str}, nodeSpace (x ++ r) = .back → nodeSpace1 (x ++ r) = .back := fun h => nodeSpace1_back h
  rcases h with h | ⟨a, S, v, rfl, ha, hS, hv, hvne⟩
  · refine .space h ?_
    rintro rfl
    rw [List.nil_append, nodeSpace1_back (hs.append r).solid.nodeSpace] at hp
    cases hp
  · refine .slash ha ?_ hS hv hvne
    rintro rfl
    obtain ⟨x, rfl⟩ := SdEnd.slash hS
    have : nodeSpace ('/' :: '-' :: (x ++ (v ++ (t ++ r)))) = .back := (slash_facts (by decide) _).1
    have := nodeSpace1_back this
    simp only [List.nil_append, List.append_assoc, List.cons_append] at hp
    rw [this] at hp
    cases hp

/-- The entries of a node that the parser accepts. The last one may end with a keyword. -/
theorem entries_exact {total : Nat} {s r : Str} {es : List Entry} (h : entriesP total s = .ok es r) :
    ∃ T, s = T ++ r ∧ EntsSrc es T ∧ (es = [] ∨ Ends r ∨ ∃ es' e w t T' f, es = es' ++ [e] ∧ T = T' ++ (w ++ t) ∧
      EntsSrc es' T' ∧ e.format = some f ∧ f.leading = w ∧ e.display = w ++ t ∧ EntryLead t w ∧
      EntryEnd true (semEntry id e) t) := by
  unfold entriesP at h
  induction rep_of_rep0 h with
  | nil _ => exact ⟨[], rfl, .nil, Or.inl rfl⟩
  | @cons s q r e es h1 hl ht ih =>
    simp only [bind_ok, peek_ok] at h1
    obtain ⟨_, _, ⟨rfl, _, hp⟩, h1⟩ := h1
    obtain ⟨w, t, rfl, hne, hlt, hte, hr, f, hf, hfl, hd⟩ := entry_exact h1
    have hlead := hlt.lead hp (EntryEnd.starts hte)
    obtain ⟨T, rfl, hT, hlast⟩ := ih (rep0_of_rep ht)
    refine ⟨w ++ (t ++ T), by simp, .cons hf hfl hd hlead hte hT, Or.inr ?_⟩
    rcases hlast with rfl | hlast | ⟨es', e', w', t', T', f', rfl, rfl, h1, h2, h3, h4, h5, h6⟩
    · cases hT
      rcases hr with hr | hr
      · exact Or.inl hr
      · exact Or.inr ⟨[], e, w, t, [], f, rfl, by simp, .nil, hf, hfl, hd, hlead, hr⟩
    · exact Or.inl hlast
    · exact Or.inr ⟨e :: es', e', w', t', w ++ (t ++ T'), f', rfl, by simp, .cons hf hfl hd hlead hte h1, h2, h3, h4, h5, h6⟩

end

end Kdl
