import Verif.Lemmas.Parser.Total
import Verif.Model.Display
/-
Inversion lemmas: what a successful run of a parser looks like.
-/

namespace Kdl

theorem identifier_inv {total : Nat} {s r : Str} {i : Ident} (h : identifier total s = .ok i r) :
    ∃ t, t ≠ [] ∧ s = t ++ r ∧ i.repr = some t ∧ i.span = spanOf total s r ∧
      stringP s = .ok i.value r := by
  unfold identifier at h
  simp only [bind_ok, here_ok, pure_ok] at h
  obtain ⟨_, _, ⟨rfl, rfl⟩, v, q, h1, _, _, ⟨rfl, rfl⟩, rfl, rfl⟩ := h
  obtain ⟨t, hne, rfl⟩ := Strict.stringP _ _ _ h1
  exact ⟨t, hne, rfl, by simp [taken_append], rfl, h1⟩

theorem takeP_inv {α : Type} {p : P α} (hp : Sfx p) {s t r : Str} (h : takeP p s = .ok t r) :
    s = t ++ r ∧ ∃ a, p s = .ok a r := by
  obtain ⟨rfl, a, h⟩ := takeP_ok.mp h
  exact ⟨hp.taken h, a, h⟩

section
variable [FloatIO]

omit [FloatIO] in
theorem tyP_inv {total : Nat} {s r b a : Str} {i : Ident} (h : tyP total s = .ok (b, i, a) r) :
    ∃ s1 s2 s3, s = '(' :: s1 ∧ takeP nodeSpace0 s1 = .ok b s2 ∧ identifier total s2 = .ok i s3 ∧
      takeP nodeSpace0 s3 = .ok a (')' :: r) := by
  unfold tyP at h
  simp only [bind_ok, lit_ok, pure_ok, cutErr_ok, peek_ok] at h
  obtain ⟨_, s1, rfl, b', s2, h1, i', s3, ⟨i'', s3', h2, _, _, ⟨rfl, _⟩, rfl, rfl⟩, a', s4, h3, _, _,
    rfl, h4, rfl⟩ := h
  simp only [Prod.mk.injEq] at h4
  obtain ⟨rfl, rfl, rfl⟩ := h4
  exact ⟨s1, s2, _, rfl, h1, h2, h3⟩

omit [FloatIO] in
theorem tyP_text {total : Nat} {s r b a : Str} {i : Ident} (h : tyP total s = .ok (b, i, a) r) :
    ∃ t, i.repr = some t ∧ s = '(' :: (b ++ t ++ a ++ ')' :: r) := by
  obtain ⟨s1, s2, s3, rfl, h1, h2, h3⟩ := tyP_inv h
  obtain ⟨t, _, rfl, ht, _⟩ := identifier_inv h2
  obtain ⟨rfl, _⟩ := takeP_inv Sfx.nodeSpace0 h1
  obtain ⟨rfl, _⟩ := takeP_inv Sfx.nodeSpace0 h3
  exact ⟨t, ht, by simp⟩

/-- The three parts of a value: annotation, space after it, value text. -/
theorem value_inv {total : Nat} {s r : Str} {e : Entry} (h : value total s = .ok e r) :
    ∃ s1 v,
      valueBody s1 = .ok v r ∧ e.value = v ∧ e.name = none ∧ e.span = spanOf total s r ∧
      ((opt (do let t ← tyP total; let a ← takeP nodeSpace0; return (t, a)) s = .ok none s ∧
          s1 = s ∧ e.ty = none ∧ e.format = some { valueRepr := taken s1 r }) ∨
       (∃ b i a q after, tyP total s = .ok (b, i, a) q ∧ takeP nodeSpace0 q = .ok after s1 ∧
          e.ty = some i ∧
          e.format = some { valueRepr := taken s1 r, afterTy := after, beforeTyName := b,
                            afterTyName := a })) := by
  unfold value at h
  rw [bind_here] at h
  rw [bind_ok] at h
  obtain ⟨ty, s1, h1, h⟩ := h
  rw [bind_here] at h
  rw [bind_ok] at h
  obtain ⟨v, q, h2, h⟩ := h
  rw [bind_here] at h
  cases ty with
  | none =>
    obtain ⟨rfl, rfl⟩ := pure_ok.mp h
    have h1' := h1
    rcases opt_ok.mp h1 with ⟨_, h, _⟩ | ⟨_, rfl, _⟩
    · cases h
    · exact ⟨_, v, h2, rfl, rfl, rfl, Or.inl ⟨h1', rfl, rfl, rfl⟩⟩
  | some x =>
    obtain ⟨⟨b, i, a⟩, after⟩ := x
    obtain ⟨rfl, rfl⟩ := pure_ok.mp h
    rcases opt_ok.mp h1 with ⟨_, h, h3⟩ | ⟨h, _⟩
    · cases h
      simp only [bind_ok, pure_ok] at h3
      obtain ⟨t, q', h4, a', q'', h5, h6, rfl⟩ := h3
      simp only [Prod.mk.injEq] at h6
      obtain ⟨rfl, rfl⟩ := h6
      exact ⟨_, v, h2, rfl, rfl, rfl, Or.inr ⟨b, i, a, q', after, h4, h5, rfl, rfl⟩⟩
    · cases h

theorem valueBody_text {s r : Str} {v : Value} (h : valueBody s = .ok v r) :
    ∃ t, t ≠ [] ∧ s = t ++ r := Strict.valueBody _ _ _ h

/-- A value prints as its source. -/
theorem value_text {total : Nat} {s r : Str} {e : Entry} (h : value total s = .ok e r) :
    ∃ f, e.format = some f ∧ f.leading = [] ∧ f.trailing = [] ∧ f.autoformatKeep = false ∧
      e.name = none ∧ s = e.displayTy ++ f.afterTy ++ f.valueRepr ++ r := by
  obtain ⟨s1, v, h1, h2, h3, _, h4⟩ := value_inv h
  obtain ⟨t, _, rfl⟩ := valueBody_text h1
  rcases h4 with ⟨_, rfl, h5, h6⟩ | ⟨b, i, a, q, after, h5, h6, h7, h8⟩
  · refine ⟨_, h6, rfl, rfl, rfl, h3, ?_⟩
    simp [Entry.displayTy, h5, taken_append]
  · obtain ⟨ti, hti, rfl⟩ := tyP_text h5
    obtain ⟨rfl, _⟩ := takeP_inv Sfx.nodeSpace0 h6
    refine ⟨_, h8, rfl, rfl, rfl, h3, ?_⟩
    simp [Entry.displayTy, h7, h8, Ident.display, hti, taken_append]

/-- The shapes of an entry without what precedes it. -/
theorem entryBody_inv {total : Nat} {s r : Str} {e : Entry} (h : entryBody total s = .ok e r) :
    (identifier total s = .back ∧ value total s = .ok e r) ∨
    (∃ i s1, identifier total s = .ok i s1 ∧ opt (do let k ← takeP nodeSpace0; equalsSign; return k) s1
        = .ok none s1 ∧ r = s1 ∧
        e = { ty := none, value := .string i.value, name := none,
              format := some { valueRepr := i.repr.getD i.value }, span := .zero }) ∨
    (∃ i s1 ak s2 ae s3 v, identifier total s = .ok i s1 ∧ takeP nodeSpace0 s1 = .ok ak ('=' :: s2) ∧
        takeP nodeSpace0 s2 = .ok ae s3 ∧ value total s3 = .ok v r ∧
        e = { v with
          name := some i
          format := v.format.map fun f => { f with afterKey := ak, afterEq := ae } }) := by
  unfold entryBody at h
  rw [bind_ok] at h
  obtain ⟨o, q, h1, h⟩ := h
  rcases opt_ok.mp h1 with ⟨i, rfl, h1'⟩ | ⟨rfl, rfl, h1'⟩
  · rw [bind_ok] at h
    obtain ⟨o, q', h2, h⟩ := h
    cases o with
    | none =>
      obtain ⟨rfl, rfl⟩ := pure_ok.mp h
      have h2' := h2
      rcases opt_ok.mp h2 with ⟨_, h, _⟩ | ⟨_, rfl, _⟩
      · cases h
      · exact Or.inr (Or.inl ⟨i, _, h1', h2', rfl, rfl⟩)
    | some ak =>
      rcases opt_ok.mp h2 with ⟨_, h', h2'⟩ | ⟨h', _⟩
      · cases h'
        simp only [bind_ok, pure_ok, equalsSign, lit_ok] at h2'
        obtain ⟨k, q1, h3, _, _, rfl, rfl, rfl⟩ := h2'
        simp only [bind_ok, pure_ok, cutErr_ok] at h
        obtain ⟨ae, s3, h4, v, _, h5, rfl, rfl⟩ := h
        exact Or.inr (Or.inr ⟨i, q, ak, q', ae, s3, v, h1', h3, h4, h5, rfl⟩)
      · cases h'
  · exact Or.inl ⟨h1', h⟩

/-- An entry without what precedes it prints as its source. -/
theorem entryBody_text {total : Nat} {s r : Str} {e : Entry} (h : entryBody total s = .ok e r) :
    ∃ f, e.format = some f ∧ f.leading = [] ∧ f.trailing = [] ∧ f.autoformatKeep = false ∧
      s = e.displayKey ++ e.displayTy ++ (f.afterTy ++ f.valueRepr) ++ r := by
  rcases entryBody_inv h with ⟨_, h⟩ | ⟨i, s1, h1, _, rfl, rfl⟩ | ⟨i, s1, ak, s2, ae, s3, v, h1, h2, h3, h4, rfl⟩
  · obtain ⟨f, hf, h1, h2, h3, h4, h5⟩ := value_text h
    refine ⟨f, hf, h1, h2, h3, ?_⟩
    simp only [Entry.displayKey, h4]
    simpa using h5
  · obtain ⟨t, _, rfl, h3, _⟩ := identifier_inv h1
    refine ⟨_, rfl, rfl, rfl, rfl, ?_⟩
    simp [Entry.displayKey, Entry.displayTy, h3]
  · obtain ⟨f, hf, h5, h6, h7, h8, h9⟩ := value_text h4
    obtain ⟨t, _, rfl, h10, _⟩ := identifier_inv h1
    obtain ⟨rfl, _⟩ := takeP_inv Sfx.nodeSpace0 h2
    obtain ⟨rfl, _⟩ := takeP_inv Sfx.nodeSpace0 h3
    refine ⟨{ f with afterKey := ak, afterEq := ae }, by simp [hf], h5, h6, h7, ?_⟩
    conv => lhs; rw [h9]
    simp [Entry.displayKey, Entry.displayTy, hf, Ident.display, h10]

theorem nodeEntryF_inv {total : Nat} {entry : P Entry} {s r : Str} {e : Entry}
    (h : nodeEntryF total entry s = .ok e r) :
    ∃ l s1 e', entryLeadingF entry s = .ok l s1 ∧ entryBody total s1 = .ok e' r ∧
      e = { e' with format := e'.format.map (fun f => { f with leading := l }),
                    span := spanOf total s1 r } := by
  unfold nodeEntryF at h
  simp only [bind_ok, here_ok, pure_ok] at h
  obtain ⟨l, s1, h1, _, _, ⟨rfl, rfl⟩, e', _, h2, _, _, ⟨rfl, rfl⟩, rfl, rfl⟩ := h
  exact ⟨l, _, e', h1, h2, rfl⟩

theorem entryLeadingF_text {entry : P Entry} (hs : Sfx entry) {s l r : Str}
    (h : entryLeadingF entry s = .ok l r) : s = l ++ r := by
  unfold entryLeadingF at h
  refine (takeP_inv ?_ h).1
  have := (Strict.slashdashedEntriesF hs).sfx
  psolve

/-- An entry prints as its source. -/
theorem nodeEntryF_text {total : Nat} {entry : P Entry} (hs : Sfx entry) {s r : Str} {e : Entry}
    (h : nodeEntryF total entry s = .ok e r) :
    s = e.display ++ r ∧ ∃ f, e.format = some f ∧ f.trailing = [] ∧ f.autoformatKeep = false := by
  obtain ⟨l, s1, e', h1, h2, rfl⟩ := nodeEntryF_inv h
  obtain ⟨f, hf, h3, h4, h5, h6⟩ := entryBody_text h2
  have := entryLeadingF_text hs h1
  refine ⟨?_, { f with leading := l }, by simp [hf], h4, h5⟩
  rw [this, h6]
  simp [Entry.display, Entry.displayKey, Entry.displayTy, hf, h4]

theorem nodeEntry_text {total : Nat} {s r : Str} {e : Entry}
    (h : nodeEntry total s = .ok e r) :
    s = e.display ++ r ∧ ∃ f, e.format = some f ∧ f.trailing = [] ∧ f.autoformatKeep = false := by
  unfold nodeEntry at h
  exact nodeEntryF_text (Strict.nodeEntryN total _).sfx h

theorem entriesP_text {total : Nat} {s r : Str} {es : List Entry}
    (h : entriesP total s = .ok es r) :
    s = displayEntries es ++ r ∧ ∀ e ∈ es, ∃ f, e.format = some f ∧ f.trailing = [] ∧
      f.autoformatKeep = false := by
  unfold entriesP at h
  induction rep_of_rep0 h with
  | nil _ => simp [displayEntries]
  | cons h1 hl ht ih =>
    simp only [bind_ok, peek_ok] at h1
    obtain ⟨_, _, ⟨rfl, _⟩, h1⟩ := h1
    obtain ⟨rfl, f, hf, hf'⟩ := nodeEntry_text h1
    obtain ⟨rfl, h2⟩ := ih (rep0_of_rep ht)
    refine ⟨by simp [displayEntries, hf], ?_⟩
    intro e he
    rcases List.mem_cons.mp he with rfl | he
    · exact ⟨f, hf, hf'⟩
    · exact h2 e he

/-! ### Nodes -/

theorem tailP_inv {total : Nat} {base : P Node} {b : Bool} {s r bt t : Str}
    (h : tailP total base b s = .ok (bt, t) r) :
    tailText total base b s = .ok bt r ∧ ∃ q, takeP (opt nodeTerminator) r = .ok t q := by
  unfold tailP at h
  simp only [bind_ok, peek_ok, pure_ok] at h
  obtain ⟨bt', q, h1, t', _, ⟨rfl, q', h2⟩, h3, rfl⟩ := h
  simp only [Prod.mk.injEq] at h3
  obtain ⟨rfl, rfl⟩ := h3
  exact ⟨h1, q', h2⟩

/-- The node that `base_node` builds from its parts. -/
def mkNode (ty : Option (Str × Ident × Str)) (afterTy : Str) (name : Ident) (es : List Entry)
    (ch : Option (Str × Document)) (bt t : Str) (span : Span) : Node :=
  .mk (ty.map (·.2.1)) name es (ch.map (·.2))
    (some { beforeTyName := (ty.map (·.1)).getD [], afterTyName := (ty.map (·.2.2)).getD [],
            afterTy := afterTy, beforeChildren := (ch.map (·.1)).getD [],
            beforeTerminator := bt, terminator := t }) span

/-- All the steps of a successful run of `base_node`. -/
theorem baseNodeF_inv {total : Nat} {base : P Node} {s r : Str} {n : Node}
    (h : baseNodeF total base s = .ok n r) :
    ∃ ty s1 afterTy s2 name s3 es s4 ch s5 bt t s6,
      s ≠ [] ∧ (∀ q, s ≠ '}' :: q) ∧ (∀ q, s ≠ '{' :: q) ∧
      opt (tyP total) s = .ok ty s1 ∧ takeP nodeSpace0 s1 = .ok afterTy s2 ∧
      identifier total s2 = .ok name s3 ∧ entriesP total s3 = .ok es s4 ∧
      childrenP total base s4 = .ok ch s5 ∧ tailP total base ch.isSome s5 = .ok (bt, t) s6 ∧
      nodeSpace0 s6 = .ok () r ∧
      n = mkNode ty afterTy name es ch bt t (spanOf total s r) := by
  unfold baseNodeF at h
  rw [bind_ok] at h
  obtain ⟨_, _, h0, h⟩ := h
  obtain ⟨rfl, h0⟩ := notP_ok.mp h0
  rw [bind_here] at h
  rw [bind_ok] at h
  obtain ⟨_, _, h1, h⟩ := h
  obtain ⟨rfl, h1⟩ := notP_ok.mp (cutErr_ok.mp h1)
  rw [bind_ok] at h
  obtain ⟨ty, s1, h2, h⟩ := h
  rw [bind_ok] at h
  obtain ⟨afterTy, s2, h3, h⟩ := h
  rw [bind_ok] at h
  obtain ⟨name, s3, h4, h⟩ := h
  split at h
  · exact absurd h (by simp [cutP])
  rw [bind_ok] at h
  obtain ⟨es, s4, h5, h⟩ := h
  rw [bind_ok] at h
  obtain ⟨ch, s5, h6, h⟩ := h
  rw [bind_ok] at h
  obtain ⟨⟨bt, t⟩, s6, h7, h⟩ := h
  rw [bind_ok] at h
  obtain ⟨⟨⟩, s7, h8, h⟩ := h
  rw [bind_here] at h
  refine ⟨ty, s1, afterTy, s2, name, s3, es, s4, ch, s5, bt, t, s6, ?_, ?_, ?_, h2, h3,
    cutErr_ok.mp h4, h5, h6, h7, ?_⟩
  · rintro rfl; cases h0
  · rintro q rfl; cases h0
  · exact lit_back.mp h1
  · rcases ty with _ | ⟨b, i, a⟩ <;> rcases ch with _ | ⟨b', d⟩ <;>
      (obtain ⟨rfl, rfl⟩ := pure_ok.mp h; exact ⟨h8, rfl⟩)

/-- `base_node` only backtracks in front of a closing brace or at the end of the
input. -/
theorem baseNodeF_back {total : Nat} {base : P Node} {s : Str}
    (h : baseNodeF total base s = .back) : s = [] ∨ ∃ q, s = '}' :: q := by
  have key : ∀ s', NoBack (do
      let s ← here
      cutErr (notP (lit ['{']))
      let ty ← opt (tyP total)
      let afterTy ← takeP nodeSpace0
      let name ← cutErr (identifier total)
      if name.repr = some [] then cutP else do
      let entries ← entriesP total
      let children ← childrenP total base
      let (bt, t) ← tailP total base children.isSome
      nodeSpace0
      let r ← here
      let (tyB, tyI, tyA) : Str × Option Ident × Str :=
        match ty with
        | some (b, i, a) => (b, some i, a)
        | none => ([], none, [])
      let (bc, ch) : Str × Option Document :=
        match children with
        | some (b, d) => (b, some d)
        | none => ([], none)
      return Node.mk tyI name entries ch
        (some { beforeTyName := tyB, afterTyName := tyA, afterTy := afterTy, beforeChildren := bc,
                beforeTerminator := bt, terminator := t })
        (spanOf total s' r) : P Node) := by
    intro s'
    refine .bind .here fun _ => .bind (.cutErr _) fun _ => .bind (.opt _) fun ty =>
      .bind (.takeP .nodeSpace0) fun _ => .bind (.cutErr _) fun _ => ?_
    split
    · exact .cutP
    · refine .bind (.rep0 _) fun _ => .bind (.opt _) fun ch => .bind (.tailP _ _) fun x => ?_
      refine .bind .nodeSpace0 fun _ => .bind .here fun _ => ?_
      rcases ty with _ | ⟨b, i, a⟩ <;> rcases ch with _ | ⟨b', d⟩ <;> exact .pure _
  unfold baseNodeF at h
  cases s with
  | nil => exact Or.inl rfl
  | cons c s =>
    right
    refine Classical.byContradiction fun hc => ?_
    have hne : ∀ q, c :: s ≠ '}' :: q := fun q e => hc ⟨q, e⟩
    have h0 : notP (lit ['}'] <+> eof) (c :: s) = .ok () (c :: s) := by
      apply notP_eq
      rw [alt_right (lit_back.mpr (by simpa using hne))]
      rfl
    rw [bind_eq h0, bind_here] at h
    exact key (c :: s) (c :: s) (by rw [bind_here]; exact h)

end
end Kdl
