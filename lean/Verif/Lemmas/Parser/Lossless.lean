import Verif.Lemmas.Parser.Inv
import Verif.Spec.Lossless
/-
The text printed for a parsed node or document, compared with its source.
-/

namespace Kdl
open Spec

section
variable [FloatIO]

omit [FloatIO] in
theorem nil_of_self {w r : Str} (h : r = w ++ r) : w = [] := by
  have := congrArg List.length h
  simp only [List.length_append] at this
  exact List.eq_nil_of_length_eq_zero (by omega)

/-! ### First characters of white space, last character of children blocks -/

omit [FloatIO] in
theorem ws_head {s r : Str} {u : Unit} (h : ws s = .ok u r) :
    ∃ c q, s = c :: q ∧ (isUnicodeSpace c = true ∨ c = '/') := by
  unfold ws at h
  rcases alt_ok.mp h with h | ⟨_, h⟩
  · unfold unicodeSpace at h
    obtain ⟨a, h⟩ := void_ok.mp h
    obtain ⟨rfl, h'⟩ := satisfy_ok.mp h
    exact ⟨_, _, rfl, Or.inl h'⟩
  · unfold multiLineComment at h
    obtain ⟨_, _, h, _⟩ := bind_ok.mp h
    obtain rfl := lit_ok.mp h
    exact ⟨_, _, rfl, Or.inr rfl⟩

omit [FloatIO] in
theorem escline_head {s r : Str} {u : Unit} (h : escline s = .ok u r) : ∃ q, s = '\\' :: q := by
  unfold escline at h
  obtain ⟨_, _, h, _⟩ := bind_ok.mp h
  obtain rfl := lit_ok.mp h
  exact ⟨_, rfl⟩

/-- A character that can start node space. -/
def spaceStart (c : Char) : Prop := isUnicodeSpace c = true ∨ c = '/' ∨ c = '\\'

omit [FloatIO] in
theorem wss_head {s r : Str} {u : Unit} (h : wss s = .ok u r) :
    r = s ∨ ∃ c q, s = c :: q ∧ spaceStart c := by
  unfold wss at h
  obtain ⟨l, h⟩ := void_ok.mp h
  cases rep_of_rep0 h with
  | nil _ => exact Or.inl rfl
  | cons h1 _ _ =>
    obtain ⟨c, q, rfl, hc⟩ := ws_head h1
    exact Or.inr ⟨c, q, rfl, hc.imp_right Or.inl⟩

omit [FloatIO] in
theorem nodeSpace_head {s r : Str} {u : Unit} (h : nodeSpace s = .ok u r) :
    ∃ c q, s = c :: q ∧ spaceStart c := by
  unfold nodeSpace at h
  rcases alt_ok.mp h with h | ⟨_, h⟩
  · obtain ⟨_, q, h1, h⟩ := bind_ok.mp h
    obtain ⟨_, q', h2, h⟩ := bind_ok.mp h
    rcases wss_head h1 with rfl | h3
    · obtain ⟨q, rfl⟩ := escline_head h2
      exact ⟨_, _, rfl, Or.inr (Or.inr rfl)⟩
    · exact h3
  · unfold wsp at h
    obtain ⟨l, h⟩ := void_ok.mp h
    obtain ⟨a, q, as, h1, _, _⟩ := rep1_ok.mp h
    obtain ⟨c, q, rfl, hc⟩ := ws_head h1
    exact ⟨c, q, rfl, hc.imp_right Or.inl⟩

omit [FloatIO] in
theorem nodeSpace0_head {s r : Str} {u : Unit} (h : nodeSpace0 s = .ok u r) :
    r = s ∨ ∃ c q, s = c :: q ∧ spaceStart c := by
  unfold nodeSpace0 at h
  obtain ⟨l, h⟩ := void_ok.mp h
  cases rep_of_rep0 h with
  | nil _ => exact Or.inl rfl
  | cons h1 _ _ => exact Or.inr (nodeSpace_head h1)

omit [FloatIO] in
theorem nodeSpace0_stop {s r : Str} {u : Unit} (h : nodeSpace0 s = .ok u r) :
    nodeSpace r = .back := by
  unfold nodeSpace0 at h
  obtain ⟨l, h⟩ := void_ok.mp h
  exact rep0_stop h

omit [FloatIO] in
theorem nodeSpace0_again {s r r' : Str} {u u' : Unit} (h : nodeSpace0 s = .ok u r)
    (h' : nodeSpace0 r = .ok u' r') : r' = r := by
  have := nodeSpace0_stop h
  unfold nodeSpace0 at h'
  rw [void_eq (rep0_nil this)] at h'
  cases h'; rfl

omit [FloatIO] in
theorem beforeNodeChildrenF_again {total : Nat} {base : P Node} {s r r' : Str} {u u' : Unit}
    [FloatIO] (h : beforeNodeChildrenF total base s = .ok u r)
    (h' : nodeSpace0 r = .ok u' r') : r' = r := by
  unfold beforeNodeChildrenF at h
  obtain ⟨_, q, _, h⟩ := bind_ok.mp h
  exact nodeSpace0_again h h'

omit [FloatIO] in
theorem isUnicodeSpace_facts : isUnicodeSpace ';' = false ∧ isUnicodeSpace '\r' = false ∧
    isUnicodeSpace '\n' = false := by decide

omit [FloatIO] in
/-- The first character of a newline. -/
def newlineStart (c : Char) : Prop :=
  c = '\r' ∨ c = '\n' ∨ c = Char.ofNat 0x85 ∨ c = Char.ofNat 0x0B ∨ c = Char.ofNat 0x0C ∨
  c = Char.ofNat 0x2028 ∨ c = Char.ofNat 0x2029

omit [FloatIO] in
theorem newline_inv {s r : Str} {u : Unit} (h : newline s = .ok u r) :
    ∃ c t, s = c :: t ∧ newlineStart c ∧ (t = r ∨ (c = '\r' ∧ t = '\n' :: r)) := by
  unfold newline at h
  simp only [alt_ok, lit_ok, List.cons_append, List.nil_append] at h
  rcases h with rfl | ⟨_, rfl | ⟨_, rfl | ⟨_, rfl | ⟨_, rfl | ⟨_, rfl | ⟨_, rfl | ⟨_, rfl⟩⟩⟩⟩⟩⟩⟩
  · exact ⟨_, _, rfl, by simp [newlineStart], Or.inr ⟨rfl, rfl⟩⟩
  all_goals exact ⟨_, _, rfl, by simp [newlineStart], Or.inl rfl⟩

omit [FloatIO] in
theorem newlineStart_not_space {c : Char} (h : newlineStart c) : ¬ spaceStart c ∧ c ≠ ';' ∧ c ≠ '}' := by
  unfold newlineStart at h
  unfold spaceStart
  rcases h with rfl | rfl | rfl | rfl | rfl | rfl | rfl <;> decide

omit [FloatIO] in
theorem singleLineComment_head {s r : Str} {u : Unit} (h : singleLineComment s = .ok u r) :
    ∃ q, s = '/' :: '/' :: q := by
  unfold singleLineComment at h
  obtain ⟨_, q, h, _⟩ := bind_ok.mp h
  exact ⟨q, lit_ok.mp h⟩

omit [FloatIO] in
theorem nodeTerminator_head {s r : Str} {u : Unit} (h : nodeTerminator s = .ok u r) :
    ∃ c q, s = c :: q ∧ (c = ';' ∨ newlineStart c ∨ (c = '/' ∧ ∃ q', q = '/' :: q')) := by
  unfold nodeTerminator at h
  rcases alt_ok.mp h with h | ⟨_, h⟩
  · exact ⟨_, _, lit_ok.mp h, Or.inl rfl⟩
  rcases alt_ok.mp h with h | ⟨_, h⟩
  · obtain ⟨c, t, rfl, hc, _⟩ := newline_inv h
    exact ⟨c, t, rfl, Or.inr (Or.inl hc)⟩
  · obtain ⟨q, rfl⟩ := singleLineComment_head h
    exact ⟨_, _, rfl, Or.inr (Or.inr ⟨rfl, q, rfl⟩)⟩

omit [FloatIO] in
theorem multiLineComment_head {s r : Str} {u : Unit} (h : multiLineComment s = .ok u r) :
    ∃ q, s = '/' :: '*' :: q := by
  unfold multiLineComment at h
  obtain ⟨_, q, h, _⟩ := bind_ok.mp h
  exact ⟨q, lit_ok.mp h⟩

omit [FloatIO] in
theorem lit_head_back {a b c d : Char} {q : Str} (h : c ≠ a ∨ d ≠ b) :
    lit [a, b] (c :: d :: q) = .back := by
  rw [lit_back]
  rintro r h'
  simp only [List.cons_append, List.nil_append, List.cons.injEq] at h'
  rcases h with h | h
  · exact h h'.1
  · exact h h'.2.1

omit [FloatIO] in
theorem ws_back_of {s : Str} (h1 : ∀ c q, s = c :: q → isUnicodeSpace c = false)
    (h2 : ∀ q, s ≠ '/' :: '*' :: q) : ws s = .back := by
  have : unicodeSpace s = .back := by unfold unicodeSpace; exact void_back (satisfy_back.mpr h1)
  unfold ws
  rw [alt_right this]
  exact bind_back (p := lit ['/', '*']) (lit_back.mpr h2)

omit [FloatIO] in
theorem nodeSpace_back_of {s : Str} (h1 : ∀ c q, s = c :: q → isUnicodeSpace c = false)
    (h2 : ∀ q, s ≠ '/' :: '*' :: q) (h3 : ∀ q, s ≠ '\\' :: q) : nodeSpace s = .back := by
  have hws := ws_back_of h1 h2
  unfold nodeSpace
  rw [alt_right]
  · unfold wsp; exact void_back (rep1_back hws)
  · rw [bind_eq (a := ()) (r := s) (by unfold wss; exact void_eq (rep0_nil hws))]
    unfold escline
    exact bind_back (bind_back (lit_back.mpr h3))

omit [FloatIO] in
/-- A node terminator cannot be taken for node space. -/
theorem nodeSpace_back_of_terminator {s r : Str} {u : Unit} (h : nodeTerminator s = .ok u r) :
    nodeSpace s = .back := by
  obtain ⟨c, q, rfl, hc⟩ := nodeTerminator_head h
  apply nodeSpace_back_of
  · rintro c' q' ⟨⟩
    rcases hc with rfl | hc | ⟨rfl, _⟩
    · decide
    · have := (newlineStart_not_space hc).1
      unfold spaceStart at this
      cases hh : isUnicodeSpace c
      · rfl
      · exact absurd (Or.inl hh) this
    · decide
  · rintro q' h'
    injection h' with h1 h2
    subst h1
    rcases hc with hc | hc | ⟨_, q'', hq⟩
    · exact absurd hc (by decide)
    · exact (newlineStart_not_space hc).1 (Or.inr (Or.inl rfl))
    · rw [h2] at hq
      exact absurd (List.cons.inj hq).1 (by decide)
  · rintro q' h'
    injection h' with h1 h2
    subst h1
    rcases hc with hc | hc | ⟨hc, _⟩
    · exact absurd hc (by decide)
    · exact (newlineStart_not_space hc).1 (Or.inr (Or.inr rfl))
    · exact absurd hc (by decide)

omit [FloatIO] in
theorem nodeTerminator_back_brace (q : Str) : nodeTerminator ('}' :: q) = .back := by
  have h1 : ∀ c : Char, ∀ t : Str, c ≠ '}' → lit (c :: t) ('}' :: q) = .back := by
    intro c t hc; exact lit_cons_ne hc
  unfold nodeTerminator newline singleLineComment
  rw [alt_right (h1 _ _ (by decide)), alt_right]
  · exact bind_back (h1 _ _ (by decide))
  · rw [alt_right (h1 _ _ (by decide)), alt_right (h1 _ _ (by decide)), alt_right (h1 _ _ (by decide)),
      alt_right (h1 _ _ (by decide)), alt_right (h1 _ _ (by decide)), alt_right (h1 _ _ (by decide)),
      alt_right (h1 _ _ (by decide))]
    exact h1 _ _ (by decide)

omit [FloatIO] in
theorem nodeTerminator_nil : nodeTerminator [] = .back := rfl

theorem nodeChildrenF_inv {total : Nat} {base : P Node} {s r : Str} {d : Document}
    (h : nodeChildrenF total base s = .ok d r) :
    ∃ q, s = '{' :: q ∧ nodesF total base q = .ok d ('}' :: r) := by
  unfold nodeChildrenF at h
  simp only [bind_ok, lit_ok, cutErr_ok, pure_ok] at h
  obtain ⟨_, q, rfl, d', q', h1, _, _, rfl, rfl, rfl⟩ := h
  exact ⟨q, rfl, h1⟩

theorem nodeChildrenF_last {total : Nat} {base : P Node} (hb : Strict base) {s r : Str} {d : Document}
    (h : nodeChildrenF total base s = .ok d r) : ∃ t, s = t ++ '}' :: r := by
  obtain ⟨q, rfl, h1⟩ := nodeChildrenF_inv h
  obtain ⟨t, rfl⟩ := Sfx.nodesF total hb _ _ _ h1
  exact ⟨'{' :: t, rfl⟩

theorem slashdashedChildrenF_last {total : Nat} {base : P Node} (hb : Strict base) {s r : Str} {u : Unit}
    (h : slashdashedChildrenF total base s = .ok u r) : ∃ t, s = t ++ '}' :: r := by
  unfold slashdashedChildrenF at h
  rw [bind_ok] at h
  obtain ⟨_, q, h0, h⟩ := h
  obtain ⟨w, rfl⟩ := Sfx.nodeSpace0 _ _ _ h0
  rw [void_ok] at h
  obtain ⟨l, h⟩ := h
  obtain ⟨a, q', as, h1, h2, rfl⟩ := sep1_ok.mp h
  have hp : ∀ {s r : Str} {u : Unit}, (do slashdash; void (nodeChildrenF total base) : P Unit) s = .ok u r →
      ∃ t, s = t ++ '}' :: r := by
    intro s r u h
    obtain ⟨_, q, h3, h⟩ := bind_ok.mp h
    obtain ⟨_, h⟩ := void_ok.mp h
    obtain ⟨t, rfl⟩ := nodeChildrenF_last hb h
    obtain ⟨t', rfl⟩ := Strict.slashdash.sfx _ _ _ h3
    exact ⟨t' ++ t, by simp⟩
  have hs : Sfx (do slashdash; void (nodeChildrenF total base) : P Unit) :=
    Strict.slashdash.sfx.bind fun _ => (Strict.nodeChildrenF total hb).sfx.void
  have key : ∀ {s r : Str} {l : List Unit},
      SepMore (do slashdash; void (nodeChildrenF total base) : P Unit) nodeSpace1 s l r →
      (∃ t, s = t ++ '}' :: r) ∨ r = s := by
    intro s r l h
    induction h with
    | nil _ => exact Or.inr rfl
    | stop _ _ _ => exact Or.inr rfl
    | cons h _ hp' _ ih =>
      obtain ⟨w, _, rfl⟩ := Strict.nodeSpace1 _ _ _ h
      obtain ⟨t, rfl⟩ := hp hp'
      rcases ih with ⟨t', rfl⟩ | rfl
      · exact Or.inl ⟨w ++ (t ++ '}' :: t'), by simp⟩
      · exact Or.inl ⟨w ++ t, by simp⟩
  obtain ⟨t, ht⟩ := hp h1
  subst ht
  rcases key (sepMore_inv hs h2) with ⟨t', rfl⟩ | rfl
  · exact ⟨w ++ (t ++ '}' :: t'), by simp⟩
  · exact ⟨w ++ t, by simp⟩

/-! ### The invariant -/

/-- What the recorded terminator `term` of node `n` says about the text that
follows the node. -/
def TermAt (g : Prop) (n : Node) (term r : Str) : Prop :=
  (nodeTerminator r = .back ∧ term = []) ∨
  (∃ u r', nodeTerminator r = .ok u r' ∧ r = term ++ r') ∨
  (term = [] ∧ ¬ Printable g n)

/-- Node `n`, read from text `t` with `r` left over, prints a subsequence of `t`
and then its terminator; if it is `Printable` it prints `t`. -/
def NodeText (g : Prop) (n : Node) (lead t r : Str) : Prop :=
  ∃ f body, n.format = some f ∧ f.leading = lead ∧ f.trailing = [] ∧
    (∀ L T ind, (n.setFormat (some { f with leading := L, trailing := T })).stringify ind =
      L ++ (body ++ (f.terminator ++ T))) ∧
    List.Sublist body t ∧ (Printable g n → body = t) ∧ TermAt g n f.terminator r

/-- Document `d`, read from text `t`, prints a subsequence of `t`; if it is
`PrintableDoc` it prints `t`. -/
def DocText (g : Prop) (d : Document) (t : Str) : Prop :=
  ∃ f body, d.format = some f ∧
    (∀ ind, d.stringify ind = body) ∧
    List.Sublist body t ∧ (PrintableDoc g d → body = t)

/-- `base` satisfies the invariant on suffixes of `whole`. -/
def BaseText (whole : Str) (base : P Node) : Prop :=
  ∀ s r n pre, whole = pre ++ s → base s = .ok n r →
    ∃ t, s = t ++ r ∧ NodeText (NoGap whole) n [] t r

omit [FloatIO] in
theorem Printable_setFormat {g : Prop} {n : Node} {f f' : NodeFmt} (hf : n.format = some f)
    (h1 : f'.beforeTyName = f.beforeTyName) (h2 : f'.afterTyName = f.afterTyName)
    (h3 : f'.afterTy = f.afterTy) (h4 : f'.terminator = f.terminator) :
    Printable g (n.setFormat (some f')) ↔ Printable g n := by
  cases n
  simp only [Node.format] at hf
  subst hf
  simp only [Node.setFormat, Printable, h1, h2, h3, h4, Node.ty, Node.name, Node.entries,
    Node.children, Node.span]

theorem nodeF_text {whole : Str} {base : P Node} (hb : BaseText whole base) (hs : Sfx base)
    {s r pre : Str} {n : Node} (hw : whole = pre ++ s) (h : nodeF base s = .ok n r) :
    ∃ l t, leadingItems base s = .ok l (t ++ r) ∧ s = l ++ (t ++ r) ∧
      NodeText (NoGap whole) n l t r := by
  unfold nodeF at h
  obtain ⟨l, q, h1, h⟩ := bind_ok.mp h
  obtain ⟨n', q', h2, h⟩ := bind_ok.mp h
  obtain ⟨hn, rfl⟩ := pure_ok.mp h
  clear h
  have h1' : s = l ++ q := by
    have := h1
    unfold leadingItems at this
    refine (takeP_inv ?_ this).1
    psolve
  subst h1'
  obtain ⟨t, rfl, f, body, hf, hl, htr, hst, hsub, heq, hterm⟩ :=
    hb q _ _ (pre ++ l) (by simp [hw]) h2
  subst hn
  have hP : Printable (NoGap whole) (n'.setFormat (Option.map (fun f => { f with leading := l }) n'.format))
      ↔ Printable (NoGap whole) n' := by
    rw [hf]
    exact Printable_setFormat hf rfl rfl rfl rfl
  refine ⟨l, t, h1, rfl, { f with leading := l }, body, by rw [hf]; rfl, rfl,
    htr, ?_, hsub, fun hp => heq (hP.mp hp), ?_⟩
  · intro L T ind
    exact hst L T ind
  · rcases hterm with h | h | ⟨h, h'⟩
    · exact Or.inl h
    · exact Or.inr (Or.inl h)
    · exact Or.inr (Or.inr ⟨h, fun hp => h' (hP.mp hp)⟩)

theorem nodeF_back {base : P Node} (hbk : ∀ s, base s = .back → s = [] ∨ ∃ q, s = '}' :: q)
    {s l q : Str} (h1 : leadingItems base s = .ok l q)
    (h : nodeF base s = .back) : q = [] ∨ ∃ q', q = '}' :: q' := by
  unfold nodeF at h
  rw [bind_eq h1] at h
  apply hbk
  cases hq : base q with
  | back => rfl
  | ok a r => rw [bind_eq hq] at h; cases h
  | cut => rw [bind_cut hq] at h; cases h
  | crash => rw [bind_crash hq] at h; cases h

omit [FloatIO] in
theorem leadingItems_again {base : P Node} {s l q : Str} (h : leadingItems base s = .ok l q) :
    leadingItems base q = .ok [] q := by
  unfold leadingItems at *
  obtain ⟨_, a, h⟩ := takeP_ok.mp h
  have := rep0_nil (rep0_stop h)
  have h2 := takeP_eq (t := []) (by simpa using this)
  simpa using h2

/-- The nodes after the first, with the separators, as printed. -/
theorem sepMore_text {whole : Str} {base : P Node} (hb : BaseText whole base) (hs : Sfx base)
    {q r : Str} {ns : List Node} (h : SepMore (nodeF base) nodeTerminator q ns r) :
    ∀ {n : Node} {term pre r' : Str} {o : Option Unit}, whole = pre ++ q →
      TermAt (NoGap whole) n term q → opt nodeTerminator r = .ok o r' →
      ∃ t body, q = t ++ r' ∧ (∀ ind, term ++ nodesStringify ns ind = body) ∧
        List.Sublist body t ∧
        (Printable (NoGap whole) n → PrintableNodes (NoGap whole) ns → body = t) := by
  induction h with
  | nil h =>
    intro n term pre r' o hw hterm ho
    rw [opt_none h] at ho
    cases ho
    have : term = [] := by
      rcases hterm with ⟨_, h'⟩ | ⟨u, r', h', _⟩ | ⟨h', _⟩
      · exact h'
      · rw [h] at h'; cases h'
      · exact h'
    subst this
    exact ⟨[], [], rfl, fun ind => rfl, .slnil, fun _ _ => rfl⟩
  | @stop s q' b h hl hp =>
    intro n term pre r' o hw hterm ho
    rw [opt_some h] at ho
    cases ho
    obtain ⟨t, rfl⟩ := Strict.nodeTerminator.sfx _ _ _ h
    rcases hterm with ⟨h', _⟩ | ⟨u, r', h', h''⟩ | ⟨rfl, h'⟩
    · rw [h] at h'; cases h'
    · rw [h] at h'; cases h'
      have := List.append_cancel_right h''
      subst this
      exact ⟨t, t, rfl, by intro ind; simp [nodesStringify], .refl _, fun _ _ => rfl⟩
    · exact ⟨t, [], rfl, by intro ind; simp [nodesStringify], List.nil_sublist _, fun hp => absurd hp h'⟩
  | @cons s q1 r1 r2 n' b ns h hl hp ht ih =>
    intro n term pre r' o hw hterm ho
    obtain ⟨sep, rfl⟩ := Strict.nodeTerminator.sfx _ _ _ h
    obtain ⟨l, t1, hl1, rfl, f, body1, hf, hl', htr, hst, hsub, heq, hterm'⟩ :=
      nodeF_text hb hs (pre := pre ++ sep) (by simp [hw]) hp
    obtain ⟨t2, body2, rfl, hst2, hsub2, heq2⟩ :=
      ih (pre := pre ++ sep ++ l ++ t1) (by simp [hw]) hterm' ho
    have hn' : ∀ ind, n'.stringify ind = l ++ (body1 ++ f.terminator) := by
      intro ind
      have := hst l [] ind
      have e : n'.setFormat (some { f with leading := l, trailing := [] }) = n' := by
        cases n'
        simp only [Node.format] at hf
        subst hf
        subst hl'
        have : f = { f with trailing := [] } := by
          cases f
          simp only at htr
          subst htr
          rfl
        simp only [Node.setFormat, Node.ty, Node.name, Node.entries, Node.children, Node.span]
        rw [← this]
      rw [e] at this
      simpa using this
    refine ⟨sep ++ (l ++ (t1 ++ t2)), term ++ (l ++ (body1 ++ body2)), by simp, ?_, ?_, ?_⟩
    · intro ind
      simp [nodesStringify, hn', ← hst2 ind]
    · refine List.Sublist.append ?_ ((List.Sublist.refl l).append (hsub.append hsub2))
      rcases hterm with ⟨h', _⟩ | ⟨u, r', h', h''⟩ | ⟨rfl, h'⟩
      · rw [h] at h'; cases h'
      · rw [h] at h'; cases h'
        rw [List.append_cancel_right h'']
        exact .refl _
      · exact List.nil_sublist _
    · intro hp1 hp2
      obtain ⟨hp2, hp3⟩ := hp2
      rw [heq hp2, heq2 hp2 hp3]
      rcases hterm with ⟨h', _⟩ | ⟨u, r', h', h''⟩ | ⟨rfl, h'⟩
      · rw [h] at h'; cases h'
      · rw [h] at h'; cases h'
        rw [List.append_cancel_right h'']
      · exact absurd hp1 h'

theorem nodesF_inv {total : Nat} {base : P Node} {s r : Str} {d : Document}
    (h : nodesF total base s = .ok d r) :
    ∃ lead s1 ns s2 o s3 trail, leadingItems base s = .ok lead s1 ∧
      sep0 (nodeF base) nodeTerminator s1 = .ok ns s2 ∧ opt nodeTerminator s2 = .ok o s3 ∧
      leadingItems base s3 = .ok trail r ∧
      d = .mk (giveLeading lead ns).2
        (some { leading := (giveLeading lead ns).1, trailing := trail }) (spanOf total s1 s2) := by
  unfold nodesF at h
  rw [bind_ok] at h
  obtain ⟨lead, s1, h1, h⟩ := h
  rw [bind_here, bind_ok] at h
  obtain ⟨ns, s2, h2, h⟩ := h
  rw [bind_here, bind_ok] at h
  obtain ⟨o, s3, h3, h⟩ := h
  rw [bind_ok] at h
  obtain ⟨trail, s4, h4, h⟩ := h
  obtain ⟨rfl, rfl⟩ := pure_ok.mp h
  exact ⟨lead, s1, ns, s2, o, s3, trail, h1, h2, h3, h4, rfl⟩

theorem nodesF_text {total : Nat} {whole : Str} {base : P Node} (hb : BaseText whole base)
    (hs : Sfx base) (hbk : ∀ s, base s = .back → s = [] ∨ ∃ q, s = '}' :: q)
    {s r pre : Str} {d : Document} (hw : whole = pre ++ s)
    (h : nodesF total base s = .ok d r) :
    ∃ t, s = t ++ r ∧ DocText (NoGap whole) d t := by
  obtain ⟨lead, s1, ns, s2, o, s3, trail, h1, h2, h3, h4, rfl⟩ := nodesF_inv h
  have hsf : ∀ {s l q : Str}, leadingItems base s = .ok l q → s = l ++ q := by
    intro s l q h
    unfold leadingItems at h
    refine (takeP_inv ?_ h).1
    psolve
  have hsn : Sfx (nodeF base) := by
    unfold nodeF
    have := Sfx.leadingItems hs
    psolve
  obtain rfl := hsf h1
  obtain rfl := hsf h4
  have hagain := leadingItems_again h1
  rcases sep0_ok.mp h2 with ⟨h5, rfl, rfl⟩ | ⟨n, q, as, h5, h6, rfl⟩
  · -- no nodes: the terminator cannot be there
    have : nodeTerminator s2 = .back := by
      rcases nodeF_back hbk hagain h5 with rfl | ⟨q', rfl⟩
      · rfl
      · exact nodeTerminator_back_brace q'
    rw [opt_none this] at h3
    cases h3
    exact ⟨lead ++ trail, by simp, { leading := lead, trailing := trail }, lead ++ trail, rfl,
      by intro ind; simp [Document.stringify, giveLeading, nodesStringify], .refl _, fun _ => rfl⟩
  · obtain ⟨l, t1, hl1, rfl, f, body1, hf, hl', htr, hst, hsub, heq, hterm⟩ :=
      nodeF_text hb hs (pre := pre ++ lead) (by simp [hw]) h5
    rw [hl1] at hagain
    have hl : l = [] := (Res.ok.inj hagain).1
    subst hl
    obtain ⟨t2, body2, rfl, hst2, hsub2, heq2⟩ :=
      sepMore_text hb hs (sepMore_inv hsn h6) (pre := pre ++ lead ++ t1) (by simp [hw]) hterm h3
    have hP : Printable (NoGap whole) (n.setFormat (some { f with leading := lead }))
        ↔ Printable (NoGap whole) n := Printable_setFormat hf rfl rfl rfl rfl
    have hf0 : f = { f with trailing := [] } := by
      cases f
      simp only at htr
      subst htr
      rfl
    refine ⟨lead ++ (t1 ++ (t2 ++ trail)), by simp, { leading := [], trailing := trail },
      lead ++ (body1 ++ (body2 ++ trail)), by simp [giveLeading, hf, Document.format], ?_, ?_, ?_⟩
    · intro ind
      have e := hst lead [] ind
      have hfe : ({ f with leading := lead } : NodeFmt) = { f with leading := lead, trailing := [] } := by
        rw [hf0]
      simp only [giveLeading, hf, Document.stringify, nodesStringify, hfe]
      rw [e, ← hst2 ind]
      simp
    · exact (List.Sublist.refl lead).append (hsub.append (hsub2.append (.refl _)))
    · intro hp
      simp only [giveLeading, hf, PrintableDoc, PrintableNodes] at hp
      obtain ⟨hp1, hp2⟩ := hp
      rw [heq (hP.mp hp1), heq2 (hP.mp hp1) hp2]

theorem baseNodeF_text {total : Nat} {whole : Str} {base : P Node} (hb : BaseText whole base)
    (hst : Strict base) (hbk : ∀ s, base s = .back → s = [] ∨ ∃ q, s = '}' :: q) :
    BaseText whole (baseNodeF total base) := by
  intro s r n pre hw h
  obtain ⟨ty, s1, afterTy, s2, name, s3, es, s4, ch, s5, bt, t, s6, _, _, _, h1, h2, h3, h4, h5, h6,
    h7, rfl⟩ := baseNodeF_inv h
  obtain ⟨rfl, _⟩ := takeP_inv Sfx.nodeSpace0 h2
  obtain ⟨tn, _, rfl, hname, _⟩ := identifier_inv h3
  have hnd : name.display = tn := by simp [Ident.display, hname]
  obtain ⟨rfl, hes⟩ := entriesP_text h4
  obtain ⟨h6, q, h8⟩ := tailP_inv h6
  -- the annotation
  obtain ⟨tyT, tyB, rfl, htyB, htyE, htyS⟩ : ∃ tyT tyB : Str,
      s = tyT ++ (afterTy ++ (tn ++ (displayEntries es ++ s4))) ∧
      (match ty.map (·.2.1) with | some t => ['('] ++ t.display ++ [')'] | none => []) = tyB ∧
      ((ty.map (·.1)).getD [] = [] ∧ (ty.map (·.2.2)).getD [] = [] → tyB = tyT) ∧
      List.Sublist tyB tyT := by
    rcases opt_ok.mp h1 with ⟨⟨b, i, a⟩, rfl, h1'⟩ | ⟨rfl, rfl, _⟩
    · replace h1 := h1'
      obtain ⟨ti, hti, rfl⟩ := tyP_text h1
      refine ⟨'(' :: (b ++ ti ++ a ++ [')']), '(' :: (ti ++ [')']), by simp, by simp [Ident.display, hti],
        ?_, ?_⟩
      · simp only [Option.map_some, Option.getD_some]
        rintro ⟨rfl, rfl⟩
        simp
      · refine List.Sublist.cons₂ _ ?_
        simp only [List.append_assoc]
        exact (List.Sublist.append (.refl ti) (List.sublist_append_right _ _)).trans
          (List.sublist_append_right _ _)
    · exact ⟨[], [], rfl, rfl, fun _ => rfl, .slnil⟩
  cases ch with
  | none =>
    have hs45 : s5 = s4 := by
      rcases opt_ok.mp h5 with ⟨_, h, _⟩ | ⟨_, h, _⟩
      · cases h
      · exact h
    subst hs45
    simp only [Option.isSome_none, tailText, Bool.false_eq_true, if_false] at h6
    obtain ⟨rfl, u, h6'⟩ := takeP_inv (Sfx.beforeNodeChildrenF total hst) h6
    obtain rfl : r = s6 := beforeNodeChildrenF_again h6' h7
    refine ⟨tyT ++ (afterTy ++ (tn ++ (displayEntries es ++ bt))), by simp, _,
      tyB ++ (tn ++ (displayEntries es ++ bt)), rfl, rfl, rfl, ?_, ?_, ?_, ?_⟩
    · intro L T ind
      simp only [Node.setFormat, mkNode, Node.stringify, Node.ty, Node.name, Node.entries, Node.children,
        Option.map_none, childrenStringify, hnd]
      simp
      exact htyB
    · exact htyS.append ((List.Sublist.refl _).trans (List.sublist_append_right afterTy _))
    · rintro ⟨⟨p1, p2, p3, _⟩, _⟩
      simp only at p3
      rw [p3, htyE ⟨p1, p2⟩]
      simp
    · rcases opt_ok.mp (takeP_ok.mp h8).2.choose_spec with ⟨a, _, h9⟩ | ⟨_, rfl, h9⟩
      · have := Strict.nodeTerminator.sfx.taken h9
        rw [← (takeP_ok.mp h8).1] at this
        exact Or.inr (Or.inl ⟨_, _, h9, this⟩)
      · refine Or.inl ⟨h9, ?_⟩
        have := (takeP_ok.mp h8).1
        simpa [taken_self] using this
  | some x =>
    obtain ⟨bc, d⟩ := x
    obtain ⟨x, hx, h5⟩ : ∃ x, some (bc, d) = some x ∧ _ := by
      rcases opt_ok.mp h5 with h | ⟨hx, _⟩
      · exact h
      · cases hx
    cases hx
    simp only [bind_ok, pure_ok] at h5
    obtain ⟨_, q1, h10, _, _, h11, h12, rfl⟩ := h5
    simp only [Prod.mk.injEq] at h12
    obtain ⟨rfl, rfl⟩ := h12
    obtain ⟨rfl, _⟩ := takeP_inv (Sfx.beforeNodeChildrenF total hst) h10
    obtain ⟨q2, rfl, h13⟩ := nodeChildrenF_inv h11
    obtain ⟨td, rfl, fd, dbody, hfd, hdst, hdsub, hdeq⟩ := nodesF_text hb hst.sfx hbk
      (pre := pre ++ tyT ++ afterTy ++ tn ++ displayEntries es ++ bc ++ ['{']) (by simp [hw]) h13
    simp only [Option.isSome_some, tailText, if_true] at h6
    have hsd : Sfx (slashdashedChildrenF total base) := (Strict.slashdashedChildrenF total hst).sfx
    obtain ⟨rfl, o, h6'⟩ := takeP_inv hsd.opt h6
    obtain ⟨w, rfl⟩ := Sfx.nodeSpace0 _ _ _ h7
    -- the text up to the last closing brace
    obtain ⟨pl, hpl⟩ : ∃ pl, tyT ++ (afterTy ++ (tn ++ (displayEntries es ++ (bc ++ '{' :: (td ++ '}' :: (bt ++ (w ++ r))))))) =
        pl ++ '}' :: (w ++ r) := by
      rcases opt_ok.mp h6' with ⟨_, _, h⟩ | ⟨_, h, _⟩
      · obtain ⟨t', ht'⟩ := slashdashedChildrenF_last hst h
        exact ⟨tyT ++ (afterTy ++ (tn ++ (displayEntries es ++ (bc ++ '{' :: (td ++ '}' :: t'))))),
          by simp [ht']⟩
      · have : bt = [] := by
          exact nil_of_self h
        subst this
        exact ⟨tyT ++ (afterTy ++ (tn ++ (displayEntries es ++ (bc ++ '{' :: td)))), by simp⟩
    -- either the terminator is right behind, or something is skipped
    have hgap : w = [] ∨ ¬ NoGap whole := by
      rcases nodeSpace0_head h7 with h | ⟨c, q, h, hc⟩
      · left
        exact nil_of_self h
      · right
        intro hg
        obtain ⟨g1, g2, g3⟩ := hg (pre ++ pl) c q (by rw [hw, hpl, h]; simp)
        rcases hc with hc | hc | hc
        · rw [hc] at g1; cases g1
        · exact g2 hc
        · exact g3 hc
    have htermw : t ≠ [] → w = [] := by
      intro ht
      rcases opt_ok.mp (takeP_ok.mp h8).2.choose_spec with ⟨a, _, h9⟩ | ⟨_, rfl, h9⟩
      · have h14 := nodeSpace_back_of_terminator h9
        unfold nodeSpace0 at h7
        rw [void_eq (rep0_nil h14)] at h7
        exact nil_of_self (Res.ok.inj h7).2.symm
      · have := (takeP_ok.mp h8).1
        simp [taken_self] at this
        exact absurd this ht
    have hterm0 : w = [] → ∀ n, TermAt (NoGap whole) n t r := by
      rintro rfl n
      rcases opt_ok.mp (takeP_ok.mp h8).2.choose_spec with ⟨a, _, h9⟩ | ⟨_, rfl, h9⟩
      · have := Strict.nodeTerminator.sfx.taken h9
        rw [← (takeP_ok.mp h8).1] at this
        exact Or.inr (Or.inl ⟨_, _, h9, this⟩)
      · refine Or.inl ⟨h9, ?_⟩
        have := (takeP_ok.mp h8).1
        simpa [taken_self] using this
    refine ⟨tyT ++ (afterTy ++ (tn ++ (displayEntries es ++ (bc ++ ('{' :: (td ++ '}' :: (bt ++ w))))))),
      by simp, _,
      tyB ++ (tn ++ (displayEntries es ++ (bc ++ ('{' :: (dbody ++ '}' :: bt))))), rfl, rfl, rfl, ?_, ?_, ?_, ?_⟩
    · intro L T ind
      simp only [Node.setFormat, mkNode, Node.stringify, Node.ty, Node.name, Node.entries, Node.children,
        Option.map_some, childrenStringify, hnd, hdst, hfd]
      simp
      exact htyB
    · refine htyS.append (List.Sublist.trans ?_ (List.sublist_append_right afterTy _))
      refine (List.Sublist.refl _).append ((List.Sublist.refl _).append ((List.Sublist.refl _).append ?_))
      refine List.Sublist.cons₂ _ (hdsub.append (List.Sublist.cons₂ _ ?_))
      exact List.sublist_append_left _ _
    · rintro ⟨⟨p1, p2, p3, p4⟩, p5⟩
      simp only at p3
      have hw0 : w = [] := by
        rcases p4 rfl with h | h
        · exact htermw h
        · exact hgap.resolve_right (fun hn => hn h)
      rw [p3, htyE ⟨p1, p2⟩, hdeq p5, hw0]
      simp
    · by_cases hw0 : w = []
      · exact hterm0 hw0 _
      · refine Or.inr (Or.inr ⟨?_, ?_⟩)
        · exact Classical.byContradiction fun ht => hw0 (htermw ht)
        · rintro ⟨⟨_, _, _, p4⟩, _⟩
          rcases p4 rfl with h | h
          · exact hw0 (htermw h)
          · exact hw0 (hgap.resolve_right (fun hn => hn h))

theorem baseNodeN_text (total : Nat) (whole : Str) (k : Nat) :
    BaseText whole (baseNodeN total k) ∧
      ∀ s, baseNodeN total k s = .back → s = [] ∨ ∃ q, s = '}' :: q := by
  induction k with
  | zero =>
    refine ⟨?_, ?_⟩
    · intro s r n pre _ h
      cases h
    · intro s h
      cases h
  | succ k ih =>
    refine ⟨?_, ?_⟩
    · exact baseNodeF_text ih.1 (Strict.baseNodeN total k) ih.2
    · intro s h
      exact baseNodeF_back h

theorem baseNode_text (total : Nat) (whole : Str) : BaseText whole (baseNode total) :=
  fun s r n pre hw h => (baseNodeN_text total whole (s.length + 1)).1 s r n pre hw h

theorem baseNode_back (total : Nat) (s : Str) (h : baseNode total s = .back) :
    s = [] ∨ ∃ q, s = '}' :: q := baseNodeF_back h

/-! ### The public parse functions -/

omit [FloatIO] in
theorem tryParse_ok {α : Type} {p : Nat → P α} {s : Str} {a : α} :
    tryParse p s = .ok a ↔ p (utf8Len s) s = .ok a [] := by
  unfold tryParse
  cases h : (do let a ← p (utf8Len s); eof; return a : P α) s with
  | ok b r =>
    simp only [bind_ok, eof_ok, pure_ok] at h
    obtain ⟨b', q, h1, _, _, ⟨rfl, rfl⟩, rfl, rfl⟩ := h
    simp [h1]
  | _ =>
    simp only [reduceCtorEq, false_iff]
    intro h1
    rw [bind_eq h1] at h
    cases h

omit [FloatIO] in
theorem tryParse_panic {α : Type} {p : Nat → P α} {s : Str} (h : tryParse p s = .panic)
    (hp : ∀ n, OkTo n (p (utf8Len s))) (hs : Sfx (p (utf8Len s))) : False := by
  unfold tryParse at h
  cases h' : (do let a ← p (utf8Len s); eof; return a : P α) s with
  | crash =>
    have : OkTo (s.length + 1) (do let a ← p (utf8Len s); eof; return a : P α) :=
      (hp _).bind hs fun _ => (OkTo.eof _).bind Sfx.eof fun _ => OkTo.pure _ _
    exact this s (by omega) h'
  | _ => rw [h'] at h; cases h

theorem documentP_inv {total : Nat} {s r : Str} {d : Document} (h : documentP total s = .ok d r) :
    r = [] ∧ ((∃ s1 d', s = Char.ofNat 0xFEFF :: s1 ∧ nodesF total (baseNode total) s1 = .ok d' [] ∧
        d = d'.prependLeading [Char.ofNat 0xFEFF]) ∨
      ((∀ s1, s ≠ Char.ofNat 0xFEFF :: s1) ∧ nodesF total (baseNode total) s = .ok d [])) := by
  unfold documentP at h
  rw [bind_ok] at h
  obtain ⟨b, s1, h1, h⟩ := h
  rw [bind_ok] at h
  obtain ⟨d', s2, h2, h⟩ := h
  rw [bind_ok] at h
  obtain ⟨_, s3, h3, h⟩ := h
  obtain ⟨rfl, rfl⟩ := eof_ok.mp (cutErr_ok.mp h3)
  rcases opt_ok.mp h1 with ⟨t, rfl, h4⟩ | ⟨rfl, rfl, h4⟩
  · obtain ⟨rfl, rfl⟩ := pure_ok.mp h
    obtain ⟨rfl, a, h5⟩ := takeP_inv Strict.bom.sfx h4
    obtain h6 := lit_ok.mp h5
    have : t = [Char.ofNat 0xFEFF] := List.append_cancel_right h6
    subst this
    exact ⟨rfl, Or.inl ⟨s1, d', rfl, h2, rfl⟩⟩
  · obtain ⟨rfl, rfl⟩ := pure_ok.mp h
    refine ⟨rfl, Or.inr ⟨?_, h2⟩⟩
    rintro s1' rfl
    have : takeP bom (Char.ofNat 0xFEFF :: s1') = .ok [Char.ofNat 0xFEFF] s1' :=
      takeP_eq (t := [Char.ofNat 0xFEFF]) (p := bom) (lit_append [Char.ofNat 0xFEFF] s1')
    rw [this] at h4
    cases h4

/-- What a parsed document prints, compared with its source. -/
theorem documentP_text {s r : Str} {total : Nat} {d : Document} (h : documentP total s = .ok d r) :
    r = [] ∧ DocText (NoGap s) d s := by
  obtain ⟨rfl, ⟨s1, d', rfl, h1, rfl⟩ | ⟨_, h1⟩⟩ := documentP_inv h
  · refine ⟨rfl, ?_⟩
    obtain ⟨t, ht, f, body, hf, hst, hsub, heq⟩ :=
      nodesF_text (baseNode_text total (Char.ofNat 0xFEFF :: s1)) (Strict.baseNode total).sfx
        (baseNode_back total) (pre := [Char.ofNat 0xFEFF]) rfl h1
    simp only [List.append_nil] at ht
    subst ht
    refine ⟨{ f with leading := Char.ofNat 0xFEFF :: f.leading }, Char.ofNat 0xFEFF :: body, ?_, ?_, ?_, ?_⟩
    · simp [Document.prependLeading, hf]
      rfl
    · intro ind
      rw [← hst ind]
      cases d'
      simp only [Document.format] at hf
      subst hf
      simp [Document.prependLeading, Document.stringify, Document.nodes, Document.format]
    · exact hsub.cons₂ _
    · intro hp
      rw [heq]
      cases d'
      exact hp
  · obtain ⟨t, ht, hd⟩ :=
      nodesF_text (baseNode_text total s) (Strict.baseNode total).sfx (baseNode_back total)
        (pre := []) rfl h1
    simp only [List.append_nil] at ht
    subst ht
    exact ⟨rfl, hd⟩

theorem Node.parse_text {s : Str} {n : Node} (h : Node.parse s = .ok n) :
    List.Sublist n.display s ∧ (Printable (NoGap s) n → n.display = s) := by
  have h := tryParse_ok.mp h
  unfold paddedNode at h
  rw [bind_here, bind_ok] at h
  obtain ⟨n', s1, h1, h⟩ := h
  rw [bind_ok] at h
  obtain ⟨o, s2, h2, h⟩ := h
  rw [bind_ok] at h
  obtain ⟨tr, s3, h3, h⟩ := h
  rw [bind_here] at h
  obtain ⟨rfl, rfl⟩ := pure_ok.mp h
  clear h
  obtain ⟨l, t, hl, hs, f, body, hf, hfl, hft, hst, hsub, heq, hterm⟩ :=
    nodeF_text (baseNode_text (utf8Len s) s) (Strict.baseNode _).sfx (pre := []) rfl h1
  have h3' : s2 = tr ++ [] := (takeP_inv (by psolve) h3).1
  simp only [List.append_nil] at h3'
  subst h3'
  have hP : Printable (NoGap s) ((n'.setFormat (Option.map (fun f => { f with trailing := s2 }) n'.format)).setSpan
      (spanOf (utf8Len s) s [])) ↔ Printable (NoGap s) n' := by
    rw [hf]
    refine Iff.trans ?_ (Printable_setFormat (g := NoGap s) (f' := { f with trailing := s2 }) hf rfl rfl rfl rfl)
    cases n'
    exact Iff.rfl
  have hd : ((n'.setFormat (Option.map (fun f => { f with trailing := s2 }) n'.format)).setSpan
      (spanOf (utf8Len s) s [])).display = l ++ (body ++ (f.terminator ++ s2)) := by
    have := hst l s2 0
    rw [hf, Option.map_some, ← this]
    subst hfl
    cases n'
    simp [Node.display, Node.setSpan, Node.setFormat, Node.stringify, Node.ty, Node.name, Node.entries,
      Node.children, Node.format]
  rw [hd, hP]
  clear hd hP
  generalize NoGap s = g at *
  conv => lhs; rw [hs]
  conv => rhs; rw [hs]
  rcases hterm with ⟨h4, h5⟩ | ⟨u, r', h4, h5⟩ | ⟨h5, h6⟩
  · rw [opt_none h4] at h2
    cases h2
    rw [h5]
    refine ⟨?_, fun hp => ?_⟩
    · exact (List.Sublist.refl l).append (hsub.append (.refl _))
    · rw [heq hp]; rfl
  · rw [opt_some h4] at h2
    cases h2
    rw [h5]
    refine ⟨?_, fun hp => ?_⟩
    · exact (List.Sublist.refl l).append (hsub.append (.refl _))
    · rw [heq hp]
  · rw [h5]
    refine ⟨?_, fun hp => absurd hp h6⟩
    obtain ⟨w, rfl⟩ := Sfx.opt Strict.nodeTerminator.sfx _ _ _ h2
    refine (List.Sublist.refl l).append (hsub.append ?_)
    exact List.sublist_append_right _ _

theorem Entry.parse_text {s : Str} {e : Entry} (h : Entry.parse s = .ok e) : e.display = s := by
  have h := tryParse_ok.mp h
  unfold paddedNodeEntry at h
  rw [bind_here, bind_ok] at h
  obtain ⟨l, s1, h1, h⟩ := h
  rw [bind_ok] at h
  obtain ⟨e', s2, h2, h⟩ := h
  rw [bind_ok] at h
  obtain ⟨tr, s3, h3, h⟩ := h
  rw [bind_here] at h
  obtain ⟨rfl, rfl⟩ := pure_ok.mp h
  clear h
  obtain ⟨rfl, f, hf, h4, _⟩ := nodeEntry_text h2
  have h1' : s = l ++ (e'.display ++ s2) := (takeP_inv (by psolve) h1).1
  have h3' : s2 = tr ++ [] := (takeP_inv (by psolve) h3).1
  rw [h1', h3']
  simp [Entry.display, hf, Entry.displayKey, Entry.displayTy, h4]

end
end Kdl
