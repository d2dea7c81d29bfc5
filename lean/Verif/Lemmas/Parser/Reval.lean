import Verif.Lemmas.Parser.EditText
import Verif.Lemmas.Parser.Parts
/-
Parsed entries whose value, with its text, is exchanged.
-/

namespace Kdl
open Spec

section
variable [FloatIO]

/-- The entry with another value, written as `t`. -/
def Entry.reval (e : Entry) (v : Value) (t : Str) : Entry :=
  { e with value := v, format := e.format.map fun f => { f with valueRepr := t } }

/-- What is printed in front of the value. -/
def Entry.front (e : Entry) : Str :=
  e.displayKey ++ e.displayTy ++ (match e.format with | some f => f.afterTy | none => [])

theorem value_reval {total : Nat} {s r : Str} {e : Entry} (h : value total s = .ok e r) :
    ∃ f, e.format = some f ∧ f.leading = [] ∧ f.trailing = [] ∧ e.name = none ∧ ValText f.valueRepr e.value ∧
      s = e.displayTy ++ f.afterTy ++ f.valueRepr ++ r ∧
      ∀ t v, ValText t v → TyText t (e.ty.map Ident.value) (e.displayTy ++ f.afterTy) := by
  obtain ⟨f0, hf0, hl0, ht0, _, hn0, hs0⟩ := value_text h
  obtain ⟨s1, v, h1, h2, h3, _, h4⟩ := value_inv h
  obtain ⟨vt, hne, rfl, hv, hr⟩ := valueBody_exact h1
  subst h2
  refine ⟨f0, hf0, hl0, ht0, hn0, ?_, hs0, fun t v ht => ?_⟩
  · rcases h4 with ⟨_, _, _, h6⟩ | ⟨b, i, a, q, after, _, _, _, h6⟩ <;>
    · rw [hf0] at h6
      cases h6
      simpa [taken_append] using hv
  · rcases h4 with ⟨_, _, h5, h6⟩ | ⟨b, i, a, q, after, h5, h6, h7, h8⟩
    · rw [hf0] at h6
      cases h6
      simp only [Entry.displayTy, h5, List.append_nil, Option.map_none]
      exact .none
    · obtain ⟨it, rfl, hr', hi, hb, ha⟩ := tyP_exact h5
      obtain ⟨rfl, hf, _⟩ := takeSpace_inv h6
      rw [hf0] at h8
      cases h8
      have hst : Starts t := (ValTok.text ht).1
      have hf' : NSpace t after := hf.swapH (by simp [hne]) (by
        rintro q rfl
        obtain ⟨c, q', e, hc⟩ := hst
        obtain ⟨rfl, rfl⟩ := List.cons.inj e
        exact absurd (by decide) hc.notNewline)
      have := TyText.some hi hb ha hf'
      simpa [Entry.displayTy, h7, hf0, Ident.display, hr'] using this

theorem starts_nl {t : Str} (h : Starts t) (r : Str) : NlImp t r := by
  rintro q rfl
  obtain ⟨c, q', e, hc⟩ := h
  obtain ⟨rfl, rfl⟩ := List.cons.inj e
  exact absurd (by decide) hc.notNewline

theorem entryBody_reval {total : Nat} {s r : Str} {e : Entry} (h : entryBody total s = .ok e r) :
    ∃ f, e.format = some f ∧ f.leading = [] ∧ f.trailing = [] ∧ ValText f.valueRepr e.value ∧
      ∀ t v, ValText t v → EntryText ⟨e.ty.map Ident.value, e.name.map Ident.value, v⟩ (e.front ++ t) := by
  rcases entryBody_inv h with ⟨_, h⟩ | ⟨i, s1, h1, _, rfl, rfl⟩ | ⟨i, s1, ak, s2, ae, s3, v0, h1, h2, h3, h4, rfl⟩
  · obtain ⟨f, hf, h1, h2, hn, hv, _, ht⟩ := value_reval h
    refine ⟨f, hf, h1, h2, hv, fun t v h => ?_⟩
    have : e.front = e.displayTy ++ f.afterTy := by simp [Entry.front, hf, Entry.displayKey, hn]
    rw [this, hn]
    exact EntryEnd.arg (k := false) (ht t v h) h
  · obtain ⟨t, hne, rfl, hr, hi, _⟩ := identifier_exact h1
    refine ⟨_, rfl, rfl, rfl, by simpa [hr] using ValText.str hi, fun t v h => ?_⟩
    exact EntryEnd.arg (k := false) (tt := []) .none h
  · obtain ⟨f, hf, h5, h6, hn, hv, e3, ht⟩ := value_reval h4
    obtain ⟨kt, hkne, rfl, hkr, hk, _⟩ := identifier_exact h1
    obtain ⟨rfl, hak, _⟩ := takeSpace_inv h2
    obtain ⟨rfl, hae, _⟩ := takeSpace_inv h3
    refine ⟨{ f with afterKey := ak, afterEq := ae }, by simp [hf], h5, h6, hv, fun t v h => ?_⟩
    have hak' : NSpace ['='] ak := NSpace.cut (t := ['=']) hak (by simp)
    have a1 := ht t v h
    have hst : Starts (v0.displayTy ++ f.afterTy ++ t) := by
      have := EntryEnd.starts (EntryEnd.arg (k := false) a1 h)
      exact this
    have hne : s3 ≠ [] := by
      obtain ⟨c, q, e, _⟩ := EntryEnd.starts (EntryEnd.arg (k := false) (ht _ _ hv) hv)
      rw [e3, e]
      simp
    have hae' : NSpace (v0.displayTy ++ f.afterTy ++ t) ae := hae.swapH hne (starts_nl hst _)
    have := EntryEnd.prop (k := false) hk hak' hae' a1 h
    simpa [Entry.front, Entry.displayKey, Entry.displayTy, hf, Ident.display, hkr] using this

/-- The value of an entry that has been read, with its text, can be exchanged. -/
def Revaluable (e : Entry) : Prop :=
  ∃ f, e.format = some f ∧ f.trailing = [] ∧ ValText f.valueRepr e.value ∧ LeadText (e.front ++ f.valueRepr) f.leading ∧
    ∀ t v, ValText t v → EntryText ⟨e.ty.map Ident.value, e.name.map Ident.value, v⟩ (e.front ++ t)

theorem nodeEntry_reval {total : Nat} {s r : Str} {e : Entry} (h : nodeEntry total s = .ok e r) : Revaluable e := by
  obtain ⟨w, t, e1, hne, hl, ht, hr, f, hf, hw, hd⟩ := entry_exact h
  rw [nodeEntry_unfold] at h
  obtain ⟨l, s1, e', h1, h2, rfl⟩ := nodeEntryF_inv h
  obtain ⟨f', hf', _, h4, h5, h6⟩ := entryBody_reval h2
  have ef : f = { f' with leading := l } := by
    simpa [hf'] using hf.symm
  subst ef
  have efr : Entry.front { e' with format := e'.format.map (fun f => { f with leading := l }), span := spanOf total s1 r } =
      e'.front := by
    simp [Entry.front, Entry.displayKey, Entry.displayTy, hf']
  refine ⟨_, hf, h4, h5, ?_, ?_⟩
  · rw [efr]
    have : t = e'.front ++ f'.valueRepr := by
      have h7 : w ++ t = w ++ (e'.front ++ f'.valueRepr) := by
        rw [← hd]
        have hw' : l = w := hw
        simp [Entry.display, Entry.front, Entry.displayKey, Entry.displayTy, hf', h4, hw']
      exact List.append_cancel_left h7
    rw [← this]
    exact hw ▸ hl
  · rw [efr]
    exact h6

theorem EntryLead.space1 {t w : Str} (h : EntryLead t w) (ht : Starts t) : ∃ q, nodeSpace1 (w ++ t) = .ok () q := by
  cases h with
  | space h hne =>
    obtain ⟨q, _, _, h1⟩ := (h.sp (by obtain ⟨_, _, rfl, _⟩ := ht; simp) t ht.solid).space1 hne
    exact ⟨_, h1⟩
  | @slash w S v hw hne hS hv hne' =>
    obtain ⟨x, rfl⟩ := SdEnd.slash hS
    have h4 : nodeSpace ('/' :: '-' :: (x ++ (v ++ t))) = .back := (slash_facts (by decide) _).1
    have h5 : NSpace ('/' :: '-' :: (x ++ (v ++ t))) w := hw.swapH (by simp) (by rintro q ⟨⟩)
    obtain ⟨_, _, _, h3⟩ := (h5.space0 h4).space1 hne
    exact ⟨_, by simpa using h3⟩

theorem Revaluable.readable {e : Entry} (h : Revaluable e) (hr : ReadableEntry e) {t : Str} {v : Value} (hv : ValText t v) :
    ReadableEntry (e.reval v t) := by
  obtain ⟨f, hf, htr, hv0, hl, ht⟩ := h
  have h0 := ht _ _ hv0
  have hlead : EntryLead (e.front ++ f.valueRepr) f.leading := by
    unfold ReadableEntry at hr
    rw [hf] at hr
    obtain ⟨w, t0, hd, hw, ht0⟩ := hr
    obtain ⟨q, h1⟩ := EntryLead.space1 hw (EntryEnd.starts ht0)
    rw [← hd] at h1
    refine hl.lead (r := []) (q := q) (u := ()) ?_ (EntryEnd.starts h0)
    rw [← h1]
    simp [Entry.display, Entry.front, hf, htr]
  have h1 := ht t v hv
  have hfr : (e.reval v t).front = e.front := by
    simp [Entry.front, Entry.reval, Entry.displayKey, Entry.displayTy, hf]
  have hne : e.front ++ f.valueRepr ≠ [] := by
    obtain ⟨_, _, e, _⟩ := EntryEnd.starts h0
    rw [e]; simp
  unfold ReadableEntry
  have : (e.reval v t).format = some { f with valueRepr := t } := by simp [Entry.reval, hf]
  rw [this]
  refine ⟨f.leading, e.front ++ t, ?_, ?_, h1⟩
  · rw [← hfr]
    simp [Entry.display, Entry.front, this, htr]
  · generalize f.leading = l at hlead
    cases hlead with
    | space h hne' => exact .space (h.swapH hne (starts_nl (EntryEnd.starts h1) _)) hne'
    | slash hw hne' hS hv' hne'' => exact .slash hw hne' hS (hv'.swapH hne (starts_nl (EntryEnd.starts h1) _)) hne''

/-- The parts of a category. -/
def TCat.parts : TCat → List Part
  | .node _ n => nodeParts n
  | .items ns _ => nodesParts ns
  | .nodes d => docParts d

omit [FloatIO] in
theorem entry_mem_node {e : Entry} {ty : Option Ident} {name : Ident} {es : List Entry} {ch : Option Document}
    {f : Option NodeFmt} {sp : Span} (h : Part.entry e ∈ nodeParts (.mk ty name es ch f sp)) :
    e ∈ es ∨ Part.entry e ∈ childrenParts ch := by
  simp only [nodeParts, List.mem_cons, List.mem_append, List.mem_map, List.mem_flatMap, entryParts, Part.entry.injEq,
    reduceCtorEq, false_or, and_false, exists_false, or_false] at h
  rcases h with ⟨e', h1, rfl⟩ | h
  · exact Or.inl h1
  · exact Or.inr h

omit [FloatIO] in
theorem entry_mem_nodes {e : Entry} {k : Bool} {ty : Option Ident} {name : Ident} {es : List Entry} {ch : Option Document}
    {f : Option NodeFmt} {sp : Span} (h : Part.entry e ∈ TCat.parts (.node k (.mk ty name es ch f sp))) :
    e ∈ es ∨ Part.entry e ∈ childrenParts ch := entry_mem_node (f := f) h

theorem Tree.readable {c : TCat} {r t : Str} (h : Tree c r t) : ∀ e, Part.entry e ∈ c.parts → ReadableEntry e := by
  induction h with
  | leaf h1 hn h2 h3 h4 h5 h6 =>
    intro e he
    rcases entry_mem_nodes he with he | he
    · exact h3.readable e he
    · simp [childrenParts] at he
  | leafKeyword h1 hn h2 h3 hf hl hd hw ht h5 h6 =>
    intro e he
    rcases entry_mem_nodes he with he | he
    · rcases List.mem_append.mp he with he | he
      · exact h3.readable e he
      · rw [List.mem_singleton.mp he]
        unfold ReadableEntry
        rw [hf]
        exact ⟨_, _, hd, hw, ht.entry⟩
    · simp [childrenParts] at he
  | block h1 hn h2 h3 h4 hw hd h6 hu h7 h8 ih =>
    intro e he
    rcases entry_mem_nodes he with he | he
    · exact h3.readable e he
    · exact ih e he
  | last _ _ ih => simpa [TCat.parts, nodesParts] using ih
  | lastTerm _ hm hL _ ih => simpa [TCat.parts, nodesParts] using ih
  | lastSlash _ hL _ ih => simpa [TCat.parts, nodesParts] using ih
  | cons _ hm hL _ _ _ ih1 ih2 =>
    intro e he
    rcases List.mem_append.mp (show Part.entry e ∈ nodeParts _ ++ nodesParts _ from he) with he | he
    · exact ih1 e he
    · exact ih2 e he
  | empty hL _ _ => simp [TCat.parts, docParts, nodesParts]
  | items hL _ _ _ ih =>
    intro e he
    simp only [TCat.parts, docParts, List.mem_cons, reduceCtorEq, false_or] at he
    exact ih e he

end

end Kdl
