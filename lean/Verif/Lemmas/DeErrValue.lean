import Verif.Lemmas.DeErrFirst
/-
Whatever is wrong with the value of an argument or a property has a place.
-/

namespace Kdl
open Spec

/-- Errors point at the entry. -/
def At {α : Type} (e : Entry) (r : Except DeError α) : Prop := ∀ err, r = .error err → err.span = some e.span

theorem At.map {α β : Type} {e : Entry} {r : Except DeError α} (f : α → β) (h : At e r) : At e (r.map f) := by
  intro err he
  cases r with
  | ok a => cases he
  | error e' => cases he; exact h _ rfl

/-- A visitor that fails without a place, or at the entry. -/
theorem At.annotated {α : Type} {e : Entry} {l : String} {r : Except DeError α}
    (h : ∀ err, r = .error err → err.span = none ∨ err.span = some e.span) : At e (annotated (some (e.span, l)) r) := by
  intro err he
  unfold Kdl.annotated at he
  cases r with
  | ok a => cases he
  | error e' =>
    simp only [Except.error.injEq] at he
    subst he
    unfold DeError.withSpan
    split
    · next sp hsp =>
      rcases h e' rfl with h | h
      · rw [hsp] at h; cases h
      · exact h
    · rfl

section
variable [FloatCast]

omit [FloatCast] in
theorem ask_plain {α : Type} (e : Entry) {r : Req} {visitor : LEvent → Except DeError α} (hc : e.call r = e.anyCall)
    (hv : ∀ ev err, visitor (.plain ev) = .error err → err.span = none) : At e ((LSrc.value e).ask r visitor) := by
  unfold LSrc.ask
  rw [show (LSrc.value e).call r = e.call r from rfl, hc]
  exact At.annotated fun err h => Or.inl (hv _ err h)

omit [FloatCast] in
theorem visit_unplaced (f : Event → Option SVal) (ev : Event) (err : DeError) (h : LEvent.visit f (.plain ev) = .error err) :
    err.span = none := by
  unfold LEvent.visit at h
  simp only at h
  split at h
  · cases h
  · cases h; rfl

/-- A variant given by a string: errors have no place of their own. -/
theorem variant_str (vs : List (Str × VTy)) (s : Str) (err : DeError) (h : deVariantE vs (.str s) = .error err) :
    err.span = none := by
  induction vs with
  | nil =>
    rw [deVariantE] at h
    cases h; rfl
  | cons p vs ih =>
    obtain ⟨k, vt⟩ := p
    rw [deVariantE] at h
    split at h
    · cases vt <;> rw [deBodyE] at h <;> cases h <;> rfl
    · exact ih h

theorem deE_value : ∀ (t : Ty) (e : Entry), At e (deE t (.value e))
  | .bool, e => by rw [deE]; exact ask_plain e rfl (visit_unplaced _)
  | .int lo hi wide, e => by rw [deE]; exact ask_plain e rfl (visit_unplaced _)
  | .f64, e => by rw [deE]; exact ask_plain e rfl (visit_unplaced _)
  | .char, e => by rw [deE]; exact ask_plain e rfl (visit_unplaced _)
  | .str, e => by rw [deE]; exact ask_plain e rfl (visit_unplaced _)
  | .unit, e => by rw [deE]; exact ask_plain e rfl (visit_unplaced _)
  | .unitStruct name, e => by rw [deE]; exact ask_plain e rfl (visit_unplaced _)
  | .option t, e => by
    have ih := deE_value t e
    rw [deE]
    unfold LSrc.ask
    rw [show (LSrc.value e).call .option = e.call .option from rfl]
    unfold Entry.call
    cases e.value <;> simp only
    case null => exact fun err h => by cases h
    all_goals
      intro err h
      have h' : Except.map SVal.some (deE t (.value e)) = .error err := by
        cases hd : deE t (.value e) with
        | ok v => rw [hd] at h; cases h
        | error e1 => rw [hd] at h; exact h
      exact ih.map _ err h'
  | .newtype t, e => by
    have ih := deE_value t e
    rw [deE]
    unfold LSrc.ask
    intro err h
    have h' : Except.map SVal.newtypeStruct (deE t (.value e)) = .error err := by
      cases hd : deE t (.value e) with
      | ok v => simp only [LSrc.call, Entry.call, hd] at h; cases h
      | error e1 => simp only [LSrc.call, Entry.call, hd] at h; exact h
    exact ih.map _ err h'
  | .seq t, e => by rw [deE]; exact ask_plain e rfl fun ev err h => by cases h; rfl
  | .tuple ts, e => by rw [deE]; exact ask_plain e rfl fun ev err h => by cases h; rfl
  | .tupleStruct ts, e => by rw [deE]; exact ask_plain e rfl fun ev err h => by cases h; rfl
  | .map t, e => by rw [deE]; exact ask_plain e rfl fun ev err h => by cases h; rfl
  | .struct fs, e => by rw [deE]; exact ask_plain e rfl fun ev err h => by cases h; rfl
  | .enum vs, e => by
    rw [deE]
    unfold LSrc.ask
    rw [show (LSrc.value e).call .enum = e.call .enum from rfl]
    unfold Entry.call
    cases e.value <;> simp only
    case string s => exact At.annotated fun err h => Or.inl (variant_str vs s err h)
    all_goals exact fun err h => by cases h; rfl

/-- A variant given by a property: errors point at the property. -/
theorem variant_prop (vs : List (Str × VTy)) (k : Str) (e : Entry) : At e (deVariantE vs (.prop k e)) := by
  induction vs with
  | nil =>
    rw [deVariantE]
    exact At.annotated fun err h => by cases h; exact Or.inl rfl
  | cons p vs ih =>
    obtain ⟨k', vt⟩ := p
    rw [deVariantE]
    split
    · cases vt with
      | unit => rw [deBodyE]; exact fun err h => by cases h
      | newtype t => rw [deBodyE]; exact (deE_value t e).map _
      | tuple ts => rw [deBodyE]; exact fun err h => by cases h; rfl
      | struct fs => rw [deBodyE]; exact fun err h => by cases h; rfl
    · exact ih

/-! ### A document of one node with one property -/

theorem oneNode_at {k : Str} {t : Ty} {n : Node} (hn : n.name.value = k) {e : Entry} (h : At e (deE t (.node n))) :
    At e (deE (.struct [(k, t)]) (.doc [n])) := by
  intro err he
  rw [deE] at he
  unfold LSrc.ask at he
  simp only [LSrc.call] at he
  rw [lgrouped_nodup (by simp)] at he
  simp only [List.map_cons, List.map_nil, fieldLoop, deFieldE, hn, if_pos, lookupKey, annotated] at he
  cases hd : deE t (.node n) with
  | error e1 =>
    rw [hd] at he
    simp only [Except.error.injEq] at he
    subst he
    exact h _ hd
  | ok v =>
    rw [hd] at he
    simp only [fieldsOf, lookupKey, if_pos] at he
    cases he

theorem single_struct {n : Node} {e : Entry} {p : Ident} {t : Ty} (he : n.entries = [e]) (hname : e.name = some p)
    (hch : n.children = none) (hp : p.value.head? ≠ some '#') : At e (deE (.struct [(p.value, t)]) (.node n)) := by
  have hne : ∀ l : Str, ('#' :: l) ∉ [p.value] := by
    intro l hm
    rw [List.mem_singleton] at hm
    exact hp (by rw [← hm]; rfl)
  have ha : n.argEntries = [] := by simp [Node.argEntries, he, hname]
  have hps : n.propEntries = [e] := by simp [Node.propEntries, he, hname]
  have hc : n.childNodes = none := by simp [Node.childNodes, hch]
  have hm : lnodeMap n (some [p.value]) = [(p.value, .value e)] := by
    have h1 : lnodeMapHead n [p.value] = [] := by
      unfold lnodeMapHead
      rw [if_neg (hne _)]
      cases n.ty <;> simp only [List.nil_append]
      rw [if_neg (hne _)]
    have h2 : lnodeMapAllArgs n [p.value] = [] := by
      unfold lnodeMapAllArgs
      rw [ha]
      simp only [lnodeMapArgs, if_neg (hne _), List.nil_append]
    have h3 : lnodeMapProp (some [p.value]) e = [(p.value, .value e)] := by
      unfold lnodeMapProp
      rw [hname]
      simp only
      rw [if_neg (hne _)]
      cases e.ty <;> simp only [List.nil_append]
      rw [show '#' :: '@' :: p.value ++ ['#', 't', 'y', 'p', 'e'] = '#' :: ('@' :: p.value ++ ['#', 't', 'y', 'p', 'e']) from rfl,
        if_neg (hne _)]
      rfl
    have h4 : lomittedFields n [p.value] = [] := by
      unfold lomittedFields lusedNames
      rw [hps, hc]
      simp [hname]
    unfold lnodeMap
    simp only [h1, h2, hps, hc, List.flatMap_cons, List.flatMap_nil, h3, h4, List.nil_append, List.append_nil]
  intro err herr
  rw [deE] at herr
  unfold LSrc.ask at herr
  simp only [LSrc.call, Node.call, List.map_cons, List.map_nil, hm, fieldLoop, deFieldE, if_pos, lookupKey, annotated] at herr
  cases hd : deE t (.value e) with
  | error e1 =>
    rw [hd] at herr
    simp only [Except.error.injEq] at herr
    subst herr
    exact deE_value t e _ hd
  | ok v =>
    rw [hd] at herr
    simp only [fieldsOf, lookupKey, if_pos] at herr
    cases herr

theorem single_enum {n : Node} {e : Entry} {p : Ident} {vs : List (Str × VTy)} (he : n.entries = [e]) (hname : e.name = some p)
    (hch : n.children = none) : At e (deE (.enum vs) (.node n)) := by
  have ha : n.argEntries = [] := by simp [Node.argEntries, he, hname]
  have hps : n.propEntries = [e] := by simp [Node.propEntries, he, hname]
  have hc : n.childNodes = none := by simp [Node.childNodes, hch]
  have hs : n.scalarEntry = none := by simp [Node.scalarEntry, ha]
  have hcall : (LSrc.node n).call .enum = .ok (.enum (.prop ((e.name.map Ident.value).getD []) e), none) := by
    change n.call .enum = _
    simp only [Node.call, Node.enumCall, hs, hc, hps, ha]
  intro err herr
  rw [deE] at herr
  unfold LSrc.ask at herr
  rw [hcall] at herr
  simp only at herr
  have hv := variant_prop vs ((e.name.map Ident.value).getD []) e
  cases hd : deVariantE vs (.prop ((e.name.map Ident.value).getD []) e) with
  | ok v => rw [hd] at herr; cases herr
  | error e1 =>
    rw [hd] at herr
    cases herr
    exact hv _ hd

end

end Kdl
