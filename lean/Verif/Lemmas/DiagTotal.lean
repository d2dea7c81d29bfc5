import Verif.Lemmas.DiagGrammar
/-
The parser with diagnostics does the same whatever the length of the whole text and the recursion budgets are,
but for the spans in its results.
-/

namespace Kdl

/-! ### Forgetting spans -/

def Ident.bare (i : Ident) : Ident := { i with span := .zero }

def Entry.bare (e : Entry) : Entry := { e with ty := e.ty.map Ident.bare, name := e.name.map Ident.bare, span := .zero }

mutual
def Node.bare : Node → Node
  | .mk t n es c f _ => .mk (t.map Ident.bare) n.bare (es.map Entry.bare) (bareChildren c) f .zero
def bareChildren : Option Document → Option Document
  | none => none
  | some d => some d.bare
def Document.bare : Document → Document
  | .mk ns f _ => .mk (bareNodes ns) f .zero
def bareNodes : List Node → List Node
  | [] => []
  | n :: ns => n.bare :: bareNodes ns
end

theorem bareNodes_map (ns : List Node) : bareNodes ns = ns.map Node.bare := by
  induction ns with
  | nil => rfl
  | cons n ns ih => rw [bareNodes, ih]; rfl

theorem bareChildren_map (c : Option Document) : bareChildren c = c.map Document.bare := by
  cases c <;> rfl

section
variable [FloatIO]

theorem Ident.display_bare (i : Ident) : i.bare.display = i.display := rfl

theorem Entry.display_bare (e : Entry) : e.bare.display = e.display := by
  obtain ⟨t, v, n, f, s⟩ := e
  unfold Entry.display Entry.displayKey Entry.displayTy Entry.bare
  cases t <;> cases n <;> rfl

theorem displayEntries_bare (es : List Entry) : displayEntries (es.map Entry.bare) = displayEntries es := by
  induction es with
  | nil => rfl
  | cons e es ih =>
    rw [List.map_cons, displayEntries, displayEntries, ih, Entry.display_bare]
    rfl

omit [FloatIO] in
theorem spaceBefore_bare (es : List Entry) : spaceBeforeChildren (es.map Entry.bare) = spaceBeforeChildren es := by
  unfold spaceBeforeChildren
  rw [List.getLast?_map]
  cases es.getLast? <;> rfl

mutual
theorem Node.stringify_bare : ∀ (n : Node) (i : Nat), n.bare.stringify i = n.stringify i
  | .mk t n es c f s, i => by
    simp only [Node.bare, Node.stringify, displayEntries_bare, spaceBefore_bare, childrenStringify_bare c]
    cases t <;> rfl
theorem childrenStringify_bare : ∀ (c : Option Document) (b : Str) (i : Nat),
    childrenStringify (bareChildren c) b i = childrenStringify c b i
  | none, b, i => rfl
  | some d, b, i => by
    rw [bareChildren, childrenStringify, childrenStringify, Document.stringify_bare d]
    cases d; rfl
theorem Document.stringify_bare : ∀ (d : Document) (i : Nat), d.bare.stringify i = d.stringify i
  | .mk ns f s, i => by simp only [Document.bare, Document.stringify, nodesStringify_bare ns]
theorem nodesStringify_bare : ∀ (ns : List Node) (i : Nat), nodesStringify (bareNodes ns) i = nodesStringify ns i
  | [], i => rfl
  | n :: ns, i => by rw [bareNodes, nodesStringify, nodesStringify, Node.stringify_bare n, nodesStringify_bare ns]
end

theorem isEmpty_bare {d d' : Document} (h : d.bare = d'.bare) : d.isEmpty = d'.isEmpty := by
  unfold Document.isEmpty Document.len Document.display
  rw [← Document.stringify_bare d, h, Document.stringify_bare]

end

/-! ### The relation -/

variable {α β γ δ : Type}

/-- The same result but for what `f` forgets; something of length at most `k` is left. -/
def DRes.Same (k : Nat) (f : α → γ) : DRes α → DRes α → Prop
  | .ok a r l, x => ∃ b, x = .ok b r l ∧ f a = f b ∧ r.length ≤ k
  | .back e r l, x => x = .back e r l ∧ r.length ≤ k
  | .cut e g r l, x => x = .cut e g r l ∧ r.length ≤ k
  | .crash, x => x = .crash

/-- On inputs shorter than `n`, the same result but for what `f` forgets. -/
def DSame (n : Nat) (f : α → γ) (p q : D α) : Prop :=
  ∀ s l, s.length < n → (p s l).Same s.length f (q s l)

theorem DRes.Same.mono {k k' : Nat} {f : α → γ} {x y : DRes α} (h : x.Same k f y) (hk : k ≤ k') : x.Same k' f y := by
  cases x with
  | ok a r l => obtain ⟨b, e, h1, h2⟩ := h; exact ⟨b, e, h1, by omega⟩
  | back e r l => exact ⟨h.1, by have := h.2; omega⟩
  | cut e g r l => exact ⟨h.1, by have := h.2; omega⟩
  | crash => exact h

namespace DSame

variable {n : Nat} {f : α → γ} {g : β → δ}

theorem mono {m : Nat} {p q : D α} (h : DSame m f p q) (hn : n ≤ m) : DSame n f p q := fun s l hs => h s l (by omega)

theorem refl {p : D α} {q : R α} (h : DTr p q) : DSame n f p p := by
  intro s l _
  have := h.inside' s l
  cases hp : p s l with
  | ok a r l => rw [hp] at this; exact ⟨a, rfl, rfl, this.length_le⟩
  | back e r l => rw [hp] at this; exact ⟨rfl, this.length_le⟩
  | cut e g r l => rw [hp] at this; exact ⟨rfl, this.length_le⟩
  | crash => rfl

theorem lift {p : L α} {q : P α} (h : LTr p q) : DSame n f (D.lift p) (D.lift p) := refl (DTr.lift h)

theorem pure {a b : α} (h : f a = f b) : DSame n f (Pure.pure a) (Pure.pure b) :=
  fun _ _ _ => ⟨b, rfl, h, Nat.le_refl _⟩

theorem here : DSame n (id : Str → Str) D.here D.here := refl DTr.here

theorem bind {p p' : D α} {k k' : α → D β} (h : DSame n f p p') (hk : ∀ a b, f a = f b → DSame n g (k a) (k' b)) :
    DSame n g (p >>= k) (p' >>= k') := by
  intro s l hs
  have h1 := h s l hs
  change (D.bind p k s l).Same _ _ (D.bind p' k' s l)
  unfold D.bind
  cases hp : p s l with
  | ok a r l' =>
    rw [hp] at h1
    obtain ⟨b, e, h2, h3⟩ := h1
    rw [e]
    exact (hk a b h2 r l' (by omega)).mono h3
  | back e r l => rw [hp] at h1; rw [h1.1]; exact ⟨rfl, h1.2⟩
  | cut e g r l => rw [hp] at h1; rw [h1.1]; exact ⟨rfl, h1.2⟩
  | crash => rw [hp] at h1; rw [show p' s _ = _ from h1]; rfl

/-- After something that consumes. -/
theorem bind_lift {p : L α} {q : P α} {k k' : α → D β} (h : LTr p q) (hq : Strict q) (hk : ∀ a, DSame n g (k a) (k' a)) :
    DSame (n + 1) g (D.lift p >>= k) (D.lift p >>= k') := by
  intro s l hs
  have h1 := h s
  change (D.bind _ k s l).Same _ _ (D.bind _ k' s l)
  unfold D.bind D.lift
  cases hp : p s with
  | ok a r =>
    rw [hp] at h1
    have := hq.lt h1.1.symm
    exact (hk a r l (by omega)).mono (by omega)
  | back e r => rw [hp] at h1; exact ⟨rfl, h1.2.length_le⟩
  | cut e r => rw [hp] at h1; exact ⟨rfl, h1.2.length_le⟩
  | crash => rfl

theorem map {p p' : D α} {k k' : α → β} (h : DSame n f p p') (hk : ∀ a b, f a = f b → g (k a) = g (k' b)) :
    DSame n g (p >>= fun a => Pure.pure (k a)) (p' >>= fun a => Pure.pure (k' a)) :=
  h.bind fun a b e => .pure (hk a b e)

theorem alt {p p' q q' : D α} (h : DSame n f p p') (h' : DSame n f q q') : DSame n f (D.alt p q) (D.alt p' q') := by
  intro s l hs
  have h1 := h s l hs
  unfold D.alt
  cases hp : p s l with
  | ok a r l' =>
    rw [hp] at h1
    obtain ⟨b, e, h2, h3⟩ := h1
    rw [e]
    exact ⟨b, rfl, h2, h3⟩
  | back e r l => rw [hp] at h1; rw [h1.1]; exact h' s l hs
  | cut e g r l => rw [hp] at h1; rw [h1.1]; exact ⟨rfl, h1.2⟩
  | crash => rw [hp] at h1; rw [show p' s _ = _ from h1]; rfl

theorem opt {p p' : D α} (h : DSame n f p p') : DSame n (Option.map f) (D.opt p) (D.opt p') := by
  intro s l hs
  have h1 := h s l hs
  unfold D.opt
  cases hp : p s l with
  | ok a r l' =>
    rw [hp] at h1
    obtain ⟨b, e, h2, h3⟩ := h1
    rw [e]
    exact ⟨some b, rfl, congrArg some h2, h3⟩
  | back e r l => rw [hp] at h1; rw [h1.1]; exact ⟨none, rfl, rfl, Nat.le_refl _⟩
  | cut e g r l => rw [hp] at h1; rw [h1.1]; exact ⟨rfl, h1.2⟩
  | crash => rw [hp] at h1; rw [show p' s _ = _ from h1]; rfl

theorem cutErr {p p' : D α} (h : DSame n f p p') : DSame n f (D.cutErr p) (D.cutErr p') := by
  intro s l hs
  have h1 := h s l hs
  unfold D.cutErr
  cases hp : p s l with
  | ok a r l' =>
    rw [hp] at h1
    obtain ⟨b, e, h2, h3⟩ := h1
    rw [e]
    exact ⟨b, rfl, h2, h3⟩
  | back e r l => rw [hp] at h1; rw [h1.1]; exact ⟨rfl, h1.2⟩
  | cut e g r l => rw [hp] at h1; rw [h1.1]; exact ⟨rfl, h1.2⟩
  | crash => rw [hp] at h1; rw [show p' s _ = _ from h1]; rfl

theorem ctx {c : PErr} {p p' : D α} (h : DSame n f p p') : DSame n f (D.ctx c p) (D.ctx c p') := by
  intro s l hs
  have h1 := h s l hs
  unfold D.ctx
  cases hp : p s l with
  | ok a r l' =>
    rw [hp] at h1
    obtain ⟨b, e, h2, h3⟩ := h1
    rw [e]
    exact ⟨b, rfl, h2, h3⟩
  | back e r l => rw [hp] at h1; rw [h1.1]; exact ⟨rfl, h1.2⟩
  | cut e g r l => rw [hp] at h1; rw [h1.1]; exact ⟨rfl, h1.2⟩
  | crash => rw [hp] at h1; rw [show p' s _ = _ from h1]; rfl

theorem mapCut {c : Str → Str → Option Region → Option Region} {p p' : D α} (h : DSame n f p p') :
    DSame n f (D.mapCut c p) (D.mapCut c p') := by
  intro s l hs
  have h1 := h s l hs
  unfold D.mapCut
  cases hp : p s l with
  | ok a r l' =>
    rw [hp] at h1
    obtain ⟨b, e, h2, h3⟩ := h1
    rw [e]
    exact ⟨b, rfl, h2, h3⟩
  | back e r l => rw [hp] at h1; rw [h1.1]; exact ⟨rfl, h1.2⟩
  | cut e g r l => rw [hp] at h1; rw [h1.1]; exact ⟨rfl, h1.2⟩
  | crash => rw [hp] at h1; rw [show p' s _ = _ from h1]; rfl

theorem takeP {p p' : D α} (h : DSame n f p p') : DSame n (id : Str → Str) (D.takeP p) (D.takeP p') :=
  here.bind fun a b e => h.bind fun _ _ _ => here.bind fun c d e' => .pure (by simp only [id] at *; rw [e, e'])

theorem void {p p' : D α} (h : DSame n f p p') : DSame n (id : Unit → Unit) (D.void p) (D.void p') :=
  h.bind fun _ _ _ => .pure rfl

theorem repFuel {p p' : D α} (h : DSame n f p p') (m : Nat) : DSame n (List.map f) (D.repFuel p m) (D.repFuel p' m) := by
  induction m with
  | zero => intro s l _; rfl
  | succ m ih =>
    intro s l hs
    have h1 := h s l hs
    unfold D.repFuel
    cases hp : p s l with
    | ok a r l' =>
      rw [hp] at h1
      obtain ⟨b, e, h2, h3⟩ := h1
      rw [e]
      simp only
      by_cases hl : r.length < s.length
      · rw [if_pos hl, if_pos hl]
        have h4 := ih r l' (by omega)
        cases hr : D.repFuel p m r l' with
        | ok as r' l'' =>
          rw [hr] at h4
          obtain ⟨bs, e, h5, h6⟩ := h4
          rw [e]
          exact ⟨b :: bs, rfl, by rw [List.map_cons, List.map_cons, h2, h5], by omega⟩
        | back e r l => rw [hr] at h4; rw [h4.1]; exact ⟨rfl, by have := h4.2; omega⟩
        | cut e g r l => rw [hr] at h4; rw [h4.1]; exact ⟨rfl, by have := h4.2; omega⟩
        | crash => rw [hr] at h4; rw [show D.repFuel p' m _ _ = _ from h4]; rfl
      · rw [if_neg hl, if_neg hl]; rfl
    | back e r l => rw [hp] at h1; rw [h1.1]; exact ⟨[], rfl, rfl, Nat.le_refl _⟩
    | cut e g r l => rw [hp] at h1; rw [h1.1]; exact ⟨rfl, h1.2⟩
    | crash => rw [hp] at h1; rw [show p' s _ = _ from h1]; rfl

theorem rep0 {p p' : D α} (h : DSame n f p p') : DSame n (List.map f) (D.rep0 p) (D.rep0 p') :=
  fun s l hs => repFuel h _ s l hs

theorem sepFuel {p p' : D α} {e e' : D β} (h : DSame n f p p') (he : DSame n g e e') (m : Nat) :
    DSame n (List.map f) (D.sepFuel p e m) (D.sepFuel p' e' m) := by
  induction m with
  | zero => intro s l _; rfl
  | succ m ih =>
    intro s l hs
    have h1 := he s l hs
    unfold D.sepFuel
    cases hp : e s l with
    | ok a r l' =>
      rw [hp] at h1
      obtain ⟨b, e, h2, h3⟩ := h1
      rw [e]
      simp only
      by_cases hl : r.length < s.length
      · rw [if_pos hl, if_pos hl]
        have h4 := h r l' (by omega)
        cases hr : p r l' with
        | ok a r' l'' =>
          rw [hr] at h4
          obtain ⟨b, e, h5, h6⟩ := h4
          rw [e]
          have h7 := ih r' l'' (by omega)
          simp only
          cases hq : D.sepFuel p _ m r' l'' with
          | ok as r'' l''' =>
            rw [hq] at h7
            obtain ⟨bs, e, h8, h9⟩ := h7
            rw [e]
            exact ⟨b :: bs, rfl, by rw [List.map_cons, List.map_cons, h5, h8], by omega⟩
          | back e r l => rw [hq] at h7; rw [h7.1]; exact ⟨rfl, by have := h7.2; omega⟩
          | cut e g r l => rw [hq] at h7; rw [h7.1]; exact ⟨rfl, by have := h7.2; omega⟩
          | crash => rw [hq] at h7; rw [show D.sepFuel p' _ m _ _ = _ from h7]; rfl
        | back e r l => rw [hr] at h4; rw [h4.1]; exact ⟨[], rfl, rfl, Nat.le_refl _⟩
        | cut e g r l => rw [hr] at h4; rw [h4.1]; exact ⟨rfl, by have := h4.2; omega⟩
        | crash => rw [hr] at h4; rw [show p' _ _ = _ from h4]; rfl
      · rw [if_neg hl, if_neg hl]; rfl
    | back e r l => rw [hp] at h1; rw [h1.1]; exact ⟨[], rfl, rfl, Nat.le_refl _⟩
    | cut e g r l => rw [hp] at h1; rw [h1.1]; exact ⟨rfl, h1.2⟩
    | crash => rw [hp] at h1; rw [show e' s _ = _ from h1]; rfl

theorem sepMore {p p' : D α} {e e' : D β} (h : DSame n f p p') (he : DSame n g e e') :
    DSame n (List.map f) (D.sepMore p e) (D.sepMore p' e') := fun s l hs => sepFuel h he _ s l hs

theorem sep1 {p p' : D α} {e e' : D β} (h : DSame n f p p') (he : DSame n g e e') :
    DSame n (List.map f) (D.sep1 p e) (D.sep1 p' e') :=
  h.bind fun a b e => (sepMore h he).bind fun c d e' => .pure (by rw [List.map_cons, List.map_cons, e, e'])

theorem sep0 {p p' : D α} {e e' : D β} (h : DSame n f p p') (he : DSame n g e e') :
    DSame n (List.map f) (D.sep0 p e) (D.sep0 p' e') := by
  intro s l hs
  have h1 := h s l hs
  unfold D.sep0
  cases hp : p s l with
  | ok a r l' =>
    rw [hp] at h1
    obtain ⟨b, e, h2, h3⟩ := h1
    rw [e]
    simp only
    have h4 := sepMore h he r l' (by omega)
    cases hr : D.sepMore p _ r l' with
    | ok as r' l'' =>
      rw [hr] at h4
      obtain ⟨bs, e, h5, h6⟩ := h4
      rw [e]
      exact ⟨b :: bs, rfl, by rw [List.map_cons, List.map_cons, h2, h5], by omega⟩
    | back e r l => rw [hr] at h4; rw [h4.1]; exact ⟨rfl, by have := h4.2; omega⟩
    | cut e g r l => rw [hr] at h4; rw [h4.1]; exact ⟨rfl, by have := h4.2; omega⟩
    | crash => rw [hr] at h4; rw [show D.sepMore p' _ _ _ = _ from h4]; rfl
  | back e r l => rw [hp] at h1; rw [h1.1]; exact ⟨[], rfl, rfl, Nat.le_refl _⟩
  | cut e g r l => rw [hp] at h1; rw [h1.1]; exact ⟨rfl, h1.2⟩
  | crash => rw [hp] at h1; rw [show p' s _ = _ from h1]; rfl

theorem resume {p p' : D α} {x : P Unit} (h : DSame n f p p') (hx : Sfx x) :
    DSame n (Option.map f) (D.resume p x) (D.resume p' x) := by
  intro s l hs
  have h1 := h s l hs
  unfold D.resume
  cases hp : p s l with
  | ok a r l' =>
    rw [hp] at h1
    obtain ⟨b, e, h2, h3⟩ := h1
    rw [e]
    exact ⟨some b, rfl, congrArg some h2, h3⟩
  | back e r l => rw [hp] at h1; rw [h1.1]; exact ⟨rfl, h1.2⟩
  | cut e g r l =>
    rw [hp] at h1
    rw [h1.1]
    simp only
    cases hq : x r with
    | ok a r' =>
      obtain ⟨t, e⟩ := hx _ _ _ hq
      refine ⟨none, rfl, rfl, ?_⟩
      have := h1.2
      rw [e, List.length_append] at this
      omega
    | back => exact ⟨rfl, h1.2⟩
    | cut => exact ⟨rfl, h1.2⟩
    | crash => rfl
  | crash => rw [hp] at h1; rw [show p' s _ = _ from h1]; rfl

end DSame

/-! ### The grammar -/

/-- Forgets the span in what `tyD` returns. -/
def bareTy (x : Str × Option Ident × Str) : Str × Option Ident × Str := (x.1, x.2.1.map Ident.bare, x.2.2)

section
variable [FloatIO] (total total' : Nat) {n : Nat}

theorem same_identifierD : DSame n Ident.bare (identifierD total) (identifierD total') := by
  refine DSame.here.bind fun _ _ e => (DSame.refl (f := id) (DTr.stringD 0 id)).bind fun v v' e' => DSame.here.bind fun c d e'' => ?_
  simp only [id] at *
  subst e e' e''
  cases v <;> exact .pure rfl

theorem same_tyBodyD : DSame n Ident.bare (tyBodyD total) (tyBodyD total') :=
  .cutErr (.ctx ((same_identifierD total total').bind fun a b e =>
    (DSame.lift (f := id) (.peek (.alt .nodeSpace (.lit _)))).bind fun _ _ _ => .pure e))

theorem same_tyD : DSame n bareTy (tyD total) (tyD total') :=
  (DSame.lift (f := id) (.lit _)).bind fun _ _ _ => (DSame.lift (f := id) (.takeP .nodeSpace0)).bind fun a b e =>
    (DSame.resume (same_tyBodyD total total') .badvalTy).bind fun i j e' =>
      (DSame.lift (f := id) (.takeP .nodeSpace0)).bind fun c d e'' =>
        (DSame.lift (f := id) (.lit _)).bind fun _ _ _ => .pure (by
          simp only [id] at *
          unfold bareTy
          simp only [e, e', e''])

theorem same_valueD : DSame n (Option.map Entry.bare) (valueD total) (valueD total') := by
  refine DSame.here.bind fun a b e => (DSame.opt (f := fun x : (Str × Option Ident × Str) × Str => (bareTy x.1, x.2))
    ((same_tyD total total').bind fun t t' e => (DSame.lift (f := id) (.takeP .nodeSpace0)).bind fun c d e' => .pure (by
      simp only [id] at *
      rw [e, e']))).bind fun ty ty' e' => DSame.here.bind fun c d e2 => (DSame.refl (f := id) (DTr.valueBodyD 0 id)).bind fun v v' e3 =>
        DSame.here.bind fun r r' e4 => ?_
  simp only [id] at *
  subst e e2 e3 e4
  rcases ty with _ | ⟨⟨x, y, z⟩, w⟩ <;> rcases ty' with _ | ⟨⟨x', y', z'⟩, w'⟩
  · cases v <;> exact .pure rfl
  · cases e'
  · cases e'
  · simp only [Option.map_some, bareTy, Option.some.injEq, Prod.mk.injEq] at e'
    obtain ⟨⟨rfl, e, rfl⟩, rfl⟩ := e'
    cases v
    · exact .pure rfl
    · refine .pure ?_
      simp [Entry.bare, e]

omit [FloatIO] in
theorem same_slashdashedEntriesDF {p p' : D (Option Entry)} (h : DSame n (Option.map Entry.bare) p p') :
    DSame (n + 1) (id : Unit → Unit) (slashdashedEntriesDF p) (slashdashedEntriesDF p') :=
  .void (.sep1 (.bind_lift .slashdash .slashdash fun _ => h) (.lift (f := id) .nodeSpace1))

omit [FloatIO] in
theorem same_entryLeadingDF {p p' : D (Option Entry)} (h : DSame n (Option.map Entry.bare) p p') :
    DSame (n + 1) (id : Str → Str) (entryLeadingDF p) (entryLeadingDF p') :=
  .takeP ((DSame.lift (f := id) .nodeSpace0).bind fun _ _ _ => .opt ((same_slashdashedEntriesDF h).bind fun _ _ _ =>
    .lift (f := id) .nodeSpace1))

theorem same_entryBodyD : DSame n (Option.map Entry.bare) (entryBodyD total) (entryBodyD total') := by
  unfold entryBodyD
  refine (DSame.opt (same_identifierD total total')).bind fun i j e => ?_
  rcases i with _ | i <;> rcases j with _ | j
  · refine (DSame.resume (same_valueD total total') .badval).bind fun v v' e => .pure ?_
    cases v <;> cases v' <;> simp_all
  · cases e
  · cases e
  · simp only [Option.map_some, Option.some.injEq] at e
    have e1 : i.value = j.value := by have := congrArg Ident.value e; exact this
    have e2 : i.repr = j.repr := by have := congrArg Ident.repr e; exact this
    refine (DSame.lift (f := id) (.opt (.bind (.takeP .nodeSpace0) fun _ => .bind .equalsSign fun _ => .pure _))).bind fun k k' e' => ?_
    simp only [id] at e'
    subst e'
    cases k with
    | none =>
      refine .pure ?_
      simp only [Option.map_some, e1, e2]
    | some k =>
      refine (DSame.lift (f := id) (.takeP .nodeSpace0)).bind fun a b e' => ?_
      simp only [id] at e'
      subst e'
      refine (DSame.mapCut (.cutErr (.ctx (same_valueD total total')))).bind fun v v' e' => .pure ?_
      cases v <;> cases v'
      · rfl
      · cases e'
      · cases e'
      · simp only [Option.map_some, Option.some.injEq] at e' ⊢
        unfold Entry.bare at e' ⊢
        simp only [Entry.mk.injEq] at e'
        obtain ⟨e3, e4, e5, e6, _⟩ := e'
        simp only [e3, e4, e6, Option.map_some, e]

theorem same_nodeEntryDF {p p' : D (Option Entry)} (h : DSame n (Option.map Entry.bare) p p') :
    DSame (n + 1) (Option.map Entry.bare) (nodeEntryDF total p) (nodeEntryDF total' p') := by
  refine (same_entryLeadingDF h).bind fun a b e => DSame.here.bind fun s s' e1 => (same_entryBodyD total total').bind fun v v' e2 =>
    DSame.here.bind fun r r' e3 => .pure ?_
  simp only [id] at *
  subst e e1 e3
  cases v <;> cases v'
  · rfl
  · cases e2
  · cases e2
  · simp only [Option.map_some, Option.some.injEq] at e2 ⊢
    unfold Entry.bare at e2 ⊢
    simp only [Entry.mk.injEq] at e2
    obtain ⟨e3, e4, e5, e6, _⟩ := e2
    simp only [e3, e4, e5, e6]

theorem same_nodeEntryDN : ∀ {n m k : Nat}, n ≤ m → n ≤ k →
    DSame n (Option.map Entry.bare) (nodeEntryDN total m) (nodeEntryDN total' k) := by
  intro n
  induction n with
  | zero => intro m k _ _ s l hs; omega
  | succ n ih =>
    intro m k hm hk
    obtain ⟨m, rfl⟩ : ∃ m', m = m' + 1 := ⟨m - 1, by omega⟩
    obtain ⟨k, rfl⟩ : ∃ k', k = k' + 1 := ⟨k - 1, by omega⟩
    exact same_nodeEntryDF total total' (ih (by omega) (by omega))

theorem same_nodeEntryD : DSame n (Option.map Entry.bare) (nodeEntryD total) (nodeEntryD total') :=
  fun s l _ => same_nodeEntryDN total total' (Nat.le_refl (s.length + 1)) (Nat.le_refl _) s l (Nat.lt_succ_self _)

theorem same_slashdashedEntriesD : DSame n (id : Unit → Unit) (slashdashedEntriesD total) (slashdashedEntriesD total') :=
  (same_slashdashedEntriesDF (same_nodeEntryD total total')).mono (Nat.le_succ _)

section
variable {base base' : D Node} (h : DSame n Node.bare base base')
include h

omit [FloatIO] in
theorem same_leadingItemsD : DSame n (id : Str → Str) (leadingItemsD base) (leadingItemsD base') :=
  .takeP (.rep0 (.alt (.lift (f := id) .lineSpace) ((DSame.lift (f := id) .slashdash).bind fun _ _ _ => .void h)))

omit [FloatIO] in
theorem same_nodeDF : DSame n Node.bare (nodeDF base) (nodeDF base') :=
  (same_leadingItemsD h).bind fun a b e => h.bind fun m m' e' => .pure (by
    simp only [id] at e
    subst e
    cases m; cases m'
    simp only [Node.bare, Node.mk.injEq] at e'
    obtain ⟨e1, e2, e3, e4, e5, _⟩ := e'
    simp only [Node.setFormat, Node.ty, Node.name, Node.entries, Node.children, Node.format, Node.bare, e1, e2, e3, e4, e5])

omit [FloatIO] h in
theorem bare_giveLeading {lead : Str} {ns ns' : List Node} (e : ns.map Node.bare = ns'.map Node.bare) :
    (giveLeading lead ns).1 = (giveLeading lead ns').1 ∧
      bareNodes (giveLeading lead ns).2 = bareNodes (giveLeading lead ns').2 := by
  cases ns <;> cases ns'
  · exact ⟨rfl, rfl⟩
  · cases e
  · cases e
  · rename_i m ms m' ms'
    simp only [List.map_cons, List.cons.injEq] at e
    obtain ⟨e, e'⟩ := e
    cases m; cases m'
    simp only [Node.bare, Node.mk.injEq] at e
    obtain ⟨e1, e2, e3, e4, rfl, _⟩ := e
    unfold giveLeading
    simp only [Node.format]
    split
    · simp only [bareNodes_map, List.map_cons, Node.bare, e', e1, e2, e3, e4, and_self]
    · simp only [bareNodes_map, List.map_cons, Node.bare, e', e1, e2, e3, e4, and_self, Node.setFormat, Node.ty, Node.name, Node.entries,
        Node.children]

omit [FloatIO] in
theorem same_nodesDF : DSame n Document.bare (nodesDF total base) (nodesDF total' base') := by
  refine (same_leadingItemsD h).bind fun a b e => DSame.here.bind fun s s' e1 =>
    (DSame.sep0 (same_nodeDF h) (.lift (f := id) .nodeTerminator)).bind fun ns ns' e2 => DSame.here.bind fun r r' e3 =>
      (DSame.lift (f := id) (.opt .nodeTerminator)).bind fun _ _ _ => (same_leadingItemsD h).bind fun t t' e4 => ?_
  simp only [id] at *
  subst e e1 e3 e4
  obtain ⟨h1, h2⟩ := bare_giveLeading (lead := a) e2
  refine .pure ?_
  simp only [Document.bare, h1, h2]

omit h in
theorem same_closeBraceD (a b : Str) {d d' : Document} (e : d.bare = d'.bare) :
    DSame n Document.bare (closeBraceD a b d) (closeBraceD a b d') := by
  intro s l _
  have := (LTr.lit ['}'] s).2
  unfold closeBraceD
  rw [isEmpty_bare e]
  cases hp : L.lit ['}'] s with
  | ok _ r => rw [hp] at this; exact ⟨d', rfl, e, this.length_le⟩
  | _ => exact ⟨_, rfl, rfl, Nat.le_refl _⟩

theorem same_nodeChildrenDF : DSame (n + 1) Document.bare (nodeChildrenDF total base) (nodeChildrenDF total' base') :=
  DSame.here.bind fun a b e => .bind_lift (.lit _) (.lit (by simp)) fun _ => DSame.here.bind fun c d e1 =>
    (same_nodesDF total total' h).bind fun x y e2 => by
      simp only [id] at *
      subst e e1
      exact same_closeBraceD a c e2

theorem same_slashdashedChildrenDF :
    DSame (n + 1) (id : Unit → Unit) (slashdashedChildrenDF total base) (slashdashedChildrenDF total' base') :=
  (DSame.lift (f := id) .nodeSpace0).bind fun _ _ _ => .void (.sep1 ((DSame.lift (f := id) .slashdash).bind fun _ _ _ =>
    .void (same_nodeChildrenDF total total' h)) (.lift (f := id) .nodeSpace1))

theorem same_beforeNodeChildrenDF :
    DSame (n + 1) (id : Unit → Unit) (beforeNodeChildrenDF total base) (beforeNodeChildrenDF total' base') := by
  have sp : DSame (n + 1) (id : Unit → Unit) (D.lift nodeSpace1L) (D.lift nodeSpace1L) := .lift .nodeSpace1
  have hc := same_slashdashedChildrenDF total total' h
  have he := same_slashdashedEntriesD total total' (n := n + 1)
  exact (DSame.alt (sp.bind fun _ _ _ => he.bind fun _ _ _ => sp.bind fun _ _ _ => hc)
    (.alt (sp.bind fun _ _ _ => he) (.alt (sp.bind fun _ _ _ => hc) (.lift .nodeSpace0)))).bind fun _ _ _ => .lift .nodeSpace0

omit h in
theorem same_entriesD : DSame n (List.map Entry.bare) (entriesD total) (entriesD total') :=
  (DSame.rep0 ((DSame.lift (f := id) (.peek .nodeSpace1)).bind fun _ _ _ => same_nodeEntryD total total')).bind fun a b e =>
    .pure (by
      revert b
      induction a with
      | nil => intro b e; cases b <;> first | rfl | cases e
      | cons x a ih =>
        intro b e
        cases b with
        | nil => cases e
        | cons y b =>
          simp only [List.map_cons, List.cons.injEq] at e
          have := ih b e.2
          cases x <;> cases y
          · simpa using this
          · cases e.1
          · cases e.1
          · have e1 := Option.some.inj e.1
            simp only [List.filterMap_cons, id, List.map_cons, e1]
            rw [this])

theorem same_childrenD : DSame (n + 1) (Option.map fun x : Str × Document => (x.1, x.2.bare)) (childrenD total base) (childrenD total' base') :=
  .opt ((DSame.takeP (same_beforeNodeChildrenDF total total' h)).bind fun a b e => (same_nodeChildrenDF total total' h).bind fun c d e' =>
    .pure (by simp only [id] at e; rw [e, e']))

theorem same_tailD (c : Bool) : DSame (n + 1) (id : Str × Str → Str × Str) (tailD total base c) (tailD total' base' c) := by
  have : DSame (n + 1) (id : Str → Str) (tailTextD total base c) (tailTextD total' base' c) := by
    cases c
    · exact .takeP (same_beforeNodeChildrenDF total total' h)
    · exact .takeP (.opt (same_slashdashedChildrenDF total total' h))
  exact this.bind fun a b e => (DSame.lift (f := id) (.peek (.takeP (.opt .nodeTerminator)))).bind fun c d e' => .pure (by
    simp only [id] at *
    rw [e, e'])

theorem same_badNodeD : DSame (n + 1) Node.bare (badNodeD total base) (badNodeD total' base') :=
  (same_nodeChildrenDF total total' h).bind fun _ _ _ => (DSame.opt (same_slashdashedChildrenDF total total' h)).bind fun _ _ _ =>
    (DSame.lift (f := id) (.peek (.opt .nodeTerminator))).bind fun _ _ _ => .pure rfl

theorem same_goodNodeD (s : Str) : DSame (n + 1) Node.bare (goodNodeD total base s) (goodNodeD total' base' s) := by
  refine (DSame.opt (same_tyD total total')).bind fun ty ty' e1 => (DSame.lift (f := id) (.takeP .nodeSpace0)).bind fun a a' e2 =>
    DSame.here.bind fun b b' e3 => (DSame.resume (.ctx (.cutErr (same_identifierD total total'))) .badval).bind fun i i' e4 => ?_
  simp only [id] at *
  subst e2 e3
  have e5 : (i.getD (.ofStr badIdent)).bare = (i'.getD (.ofStr badIdent)).bare := by
    cases i <;> cases i' <;> first | cases e4 | skip
    · rfl
    · exact Option.some.inj e4
  generalize i.getD (.ofStr badIdent) = x at *
  generalize i'.getD (.ofStr badIdent) = x' at *
  have e6 : checkNameD b x = checkNameD b x' := by
    unfold checkNameD
    have e : x.bare.repr = x'.bare.repr := congrArg Ident.repr e5
    rw [show x.repr = x'.repr from e]
  rw [e6]
  refine (DSame.refl (f := id) (DTr.checkNameD b x')).bind fun _ _ _ => (same_entriesD total total').bind fun es es' e7 =>
    (same_childrenD total total' h).bind fun c c' e8 => ?_
  have e9 : c.isSome = c'.isSome := by
    cases c <;> cases c' <;> first | rfl | cases e8
  rw [e9]
  refine (same_tailD total total' h _).bind fun t t' e10 => (DSame.lift (f := id) .nodeSpace0).bind fun _ _ _ =>
    DSame.here.bind fun r r' e11 => ?_
  simp only [id] at *
  subst e10 e11
  have e12 : bareTy (ty.getD ([], none, [])) = bareTy (ty'.getD ([], none, [])) := by
    cases ty <;> cases ty' <;> first | cases e1 | skip
    · rfl
    · exact Option.some.inj e1
  generalize ty.getD ([], none, []) = y at *
  generalize ty'.getD ([], none, []) = y' at *
  obtain ⟨y1, y2, y3⟩ := y
  obtain ⟨z1, z2, z3⟩ := y'
  simp only [bareTy, Prod.mk.injEq] at e12
  obtain ⟨rfl, e13, rfl⟩ := e12
  rcases c with _ | ⟨c1, c2⟩ <;> rcases c' with _ | ⟨d1, d2⟩
  · exact .pure (by simp only [Node.bare, e5, e7, e13])
  · cases e8
  · cases e8
  · have := Option.some.inj e8
    simp only [Prod.mk.injEq] at this
    obtain ⟨rfl, e14⟩ := this
    exact .pure (by simp only [Node.bare, bareChildren, e5, e7, e13, e14])

theorem same_baseNodeDF : DSame (n + 1) Node.bare (baseNodeDF total base) (baseNodeDF total' base') := by
  refine (DSame.lift (f := id) (.notP (.alt (.lit _) .eof))).bind fun _ _ _ => DSame.here.bind fun s s' e => ?_
  simp only [id] at e
  subst e
  have hr : DSame (n + 1) (id : Option Unit → Option Unit) (D.resume (.lift (.cutErr (.ctx openCx (.notP (.lit ['{']))))) (lit ['{']))
      (D.resume (.lift (.cutErr (.ctx openCx (.notP (.lit ['{']))))) (lit ['{'])) := by
    have := DSame.resume (n := n + 1) (f := (id : Unit → Unit)) (DSame.lift (.cutErr (.ctx (c := openCx) (.notP (.lit ['{']))))) (.lit ['{'])
    simpa using this
  intro s1 l hs
  have h1 := hr s1 l hs
  unfold openCurlyD
  cases hp : D.resume (.lift (.cutErr (.ctx openCx (.notP (.lit ['{']))))) (lit ['{']) s1 l with
  | ok a r l' =>
    rw [hp] at h1
    obtain ⟨_, _, _, hl⟩ := h1
    cases a with
    | none => exact same_badNodeD total total' h s1 l' hs
    | some a => exact (same_goodNodeD total total' h s r l' (by omega)).mono hl
  | back e r l' => rw [hp] at h1; exact ⟨rfl, h1.2⟩
  | cut e g r l' => rw [hp] at h1; exact ⟨rfl, h1.2⟩
  | crash => rfl

end

theorem same_baseNodeDN : ∀ {n m k : Nat}, n ≤ m → n ≤ k → DSame n Node.bare (baseNodeDN total m) (baseNodeDN total' k) := by
  intro n
  induction n with
  | zero => intro m k _ _ s l hs; omega
  | succ n ih =>
    intro m k hm hk
    obtain ⟨m, rfl⟩ : ∃ m', m = m' + 1 := ⟨m - 1, by omega⟩
    obtain ⟨k, rfl⟩ : ∃ k', k = k' + 1 := ⟨k - 1, by omega⟩
    exact same_baseNodeDF total total' (ih (by omega) (by omega))

theorem same_baseNodeD : DSame n Node.bare (baseNodeD total) (baseNodeD total') :=
  fun s l _ => same_baseNodeDN total total' (Nat.le_refl (s.length + 1)) (Nat.le_refl _) s l (Nat.lt_succ_self _)

omit [FloatIO] in
theorem same_docEndD {p p' : D Document} (h : DSame n Document.bare p p') :
    DSame (n + 1) (id : Unit → Unit) (docEndD p) (docEndD p') := by
  intro s l hs
  unfold docEndD
  cases s with
  | nil => exact ⟨(), rfl, rfl, Nat.le_refl _⟩
  | cons c s =>
    have : D.resume (.ctx { label := some "EOF", message := some "Expected end of document" }
      (.lift (.cutErr .eof))) (Kdl.void anyChar) (c :: s) l = .ok none s
        (l ++ [({ label := some "EOF", message := some "Expected end of document" }, ⟨c :: s, s⟩)]) := rfl
    change (D.bind _ _ _ _).Same _ _ (D.bind _ _ _ _)
    unfold D.bind
    rw [this]
    simp only [List.length_cons] at hs
    exact (DSame.void h s _ (by omega)).mono (by simp)

theorem same_documentDF {p p' : D Document} (h : DSame n Document.bare p p') :
    DSame (n + 1) Document.bare (documentDF total p) (documentDF total' p') := by
  refine (DSame.lift (f := id) (.opt (.takeP .bom))).bind fun a b e =>
    (same_nodesDF total total' (same_baseNodeD total total')).bind fun d d' e1 => (same_docEndD h).bind fun _ _ _ => ?_
  simp only [id] at e
  subst e
  cases a with
  | none => exact .pure e1
  | some a =>
    refine .pure ?_
    cases d; cases d'
    simp only [Document.bare, Document.mk.injEq] at e1
    obtain ⟨e2, e3, _⟩ := e1
    subst e3
    simp only [Document.prependLeading, Document.nodes, Document.format, Document.bare, e2]

theorem same_documentDN : ∀ {n m k : Nat}, n ≤ m → n ≤ k → DSame n Document.bare (documentDN total m) (documentDN total' k) := by
  intro n
  induction n with
  | zero => intro m k _ _ s l hs; omega
  | succ n ih =>
    intro m k hm hk
    obtain ⟨m, rfl⟩ : ∃ m', m = m' + 1 := ⟨m - 1, by omega⟩
    obtain ⟨k, rfl⟩ : ∃ k', k = k' + 1 := ⟨k - 1, by omega⟩
    exact same_documentDF total total' (ih (by omega) (by omega))

end

end Kdl
