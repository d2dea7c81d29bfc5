import Verif.Lemmas.Parser.ExactInput
import Verif.Spec.Snug
/-
A parsed document prints its source exactly if the source is as in `Spec.Snug`.
-/

namespace Kdl
open Spec

section
variable [FloatIO]

/-! ### Such texts are texts of the grammar -/

omit [FloatIO] in
theorem Spec.SnugTy.text {ty : Option Str} {t : Str} (h : SnugTy ty t) (nx : Str) : TyText nx ty t := by
  cases h with
  | none => exact .none
  | some hi =>
    have := TyText.some (nx := nx) hi .nil .nil .nil
    simpa using this

theorem Spec.SnugTail.text {v : Str} (h : SnugTail v) (r : Str) : Text .tail r v := by
  cases h with
  | none => exact .tailSpace .nil
  | blocks hw hC =>
    have := Text.tailBlocks (r := r) hw hC .nil
    simpa using this

theorem Spec.Snug.text {c : Cat} {r t : Str} (h : Snug c r t) : Text c r t := by
  induction h with
  | leaf h1 h2 h3 h4 => exact .leaf (h1.text _) h2 h3 h4
  | leafKeyword h1 h2 h3 h4 h5 => exact .leafKeyword (h1.text _) h2 h3 h4 h5
  | block h1 h2 h3 h4 _ h6 ih => exact .block (h1.text _) h2 h3 h4 (ih.brace (Or.inr rfl)) (h6.text _)
  | last _ ih => exact .last ih
  | lastTerm _ hm hL ih => exact .lastTerm ih hm hL
  | lastSlash _ hL ih => exact .lastSlash ih hL
  | cons _ hm hL _ ih1 ih2 => exact .cons ih1 hm hL ih2
  | empty hL => exact .empty hL
  | items hL _ ih => exact .items hL ih

/-! ### Printing -/

/-- The node prints as `B`, apart from what is in front of it and its terminator. -/
def Shows (n : Node) (f : NodeFmt) (B : Str) : Prop := n.format = some f ∧ f.trailing = [] ∧
  ∀ L T ind, (n.setFormat (some { f with leading := L, trailing := T })).stringify ind = L ++ (B ++ (f.terminator ++ T))

/-- The nodes print as `X`, apart from what is in front of the first one. -/
def ShowAll (n : Node) (ns : List Node) (f : NodeFmt) (X : Str) : Prop := n.format = some f ∧ f.trailing = [] ∧
  ∀ L ind, (n.setFormat (some { f with leading := L })).stringify ind ++ nodesStringify ns ind = L ++ X

omit [FloatIO] in
theorem setFormat_self {n : Node} {f : NodeFmt} (h : n.format = some f) : n.setFormat (some f) = n := by
  cases n
  simp only [Node.format] at h
  subst h
  rfl

theorem Shows.lead {n : Node} {f : NodeFmt} {B : Str} (h : Shows n f B) (L : Str) :
    Shows (n.setFormat (n.format.map fun f => { f with leading := L })) { f with leading := L } B := by
  obtain ⟨h1, h2, h3⟩ := h
  refine ⟨by rw [h1]; cases n; rfl, h2, fun L' T ind => ?_⟩
  rw [← h3 L' T ind]
  cases n; rfl

theorem Shows.string {n : Node} {f : NodeFmt} {B : Str} (h : Shows n f B) (ind : Nat) :
    n.stringify ind = f.leading ++ (B ++ f.terminator) := by
  have := h.2.2 f.leading [] ind
  rw [List.append_nil] at this
  rw [← this]
  congr 1
  have e : { f with leading := f.leading, trailing := [] } = f := by
    have := h.2.1
    cases f
    simp only at this
    subst this
    rfl
  rw [e, setFormat_self h.1]

theorem Shows.all {n : Node} {f : NodeFmt} {B : Str} (h : Shows n f B) {ns : List Node} {X : Str}
    (hX : ∀ ind, nodesStringify ns ind = X) : ShowAll n ns f (B ++ (f.terminator ++ X)) := by
  refine ⟨h.1, h.2.1, fun L ind => ?_⟩
  have := h.2.2 L [] ind
  have e : { f with leading := L, trailing := [] } = { f with leading := L } := by
    have := h.2.1
    cases f
    simp only at this
    subst this
    rfl
  rw [← e, this, hX]
  simp

theorem ShowAll.string {n : Node} {ns : List Node} {f : NodeFmt} {X : Str} (h : ShowAll n ns f X) (ind : Nat) :
    nodesStringify (n :: ns) ind = f.leading ++ X := by
  have := h.2.2 f.leading ind
  rw [nodesStringify, ← this]
  have e : { f with leading := f.leading } = f := rfl
  rw [e, setFormat_self h.1]

theorem childrenStringify_parsed {d : Document} {D w : Str} (h1 : d.format.isSome = true) (h2 : ∀ ind, d.stringify ind = D) (ind : Nat) :
    childrenStringify (some d) w ind = w ++ '{' :: (D ++ ['}']) := by
  have : d.format.isNone = false := by
    cases h : d.format with
    | none => rw [h] at h1; cases h1
    | some f => rfl
  simp [childrenStringify, this, h2]

/-! ### What is printed has the length of the source only if the source is snug -/

theorem tySrc_snug {nt : Str} {ty : Option Ident} {f : NodeFmt} {tt : Str} (h : TySrc nt ty f tt) :
    ∃ b : Str, (match ty with | some t => ['('] ++ t.display ++ [')'] | none => []) = b ∧ b.length ≤ tt.length ∧
      (b.length = tt.length → SnugTy (ty.map Ident.value) tt) := by
  rcases h with ⟨rfl, rfl⟩ | ⟨i, it, rfl, hr, h1, h2, h3, h4, rfl⟩
  · exact ⟨[], rfl, Nat.le_refl _, fun _ => .none⟩
  · have hd : i.display = it := by simp [Ident.display, hr]
    refine ⟨'(' :: (it ++ [')']), by simp [hd], by simp; omega, fun e => ?_⟩
    simp only [List.length_cons, List.length_append, List.length_nil] at e
    have e1 : f.beforeTyName = [] := List.length_eq_zero_iff.mp (by omega)
    have e2 : f.afterTyName = [] := List.length_eq_zero_iff.mp (by omega)
    have e3 : f.afterTy = [] := List.length_eq_zero_iff.mp (by omega)
    rw [e1, e2, e3]
    exact .some h1

/-- What is printed for a category of `Tree`, compared with the source. -/
def TCat.Fits : TCat → Str → Str → Prop
  | .node k n, r, t => ∃ f body, Shows n f body ∧ body.length ≤ t.length ∧
      (body.length = t.length → Snug (.node k (semNode id n)) r t)
  | .items ns tr, r, t => ∃ n ns' f X, ns = n :: ns' ∧ ShowAll n ns' f X ∧ (X ++ tr).length ≤ t.length ∧
      ((X ++ tr).length = t.length → Snug (.items (semNodes id ns)) r t)
  | .nodes d, r, t => ∃ body, d.format.isSome = true ∧ (∀ ind, d.stringify ind = body) ∧ body.length ≤ t.length ∧
      (body.length = t.length → Snug (.nodes (semDoc id d)) r t)

theorem Tree.fits {c : TCat} {r t : Str} (h : Tree c r t) : c.Fits r t := by
  induction h with
  | @leaf k ty name es f span tt nt T w r h1 hn h2 h3 h4 h5 h6 =>
    obtain ⟨b, hb, hl, hs⟩ := tySrc_snug h1
    have hd : name.display = nt := by simp [Ident.display, hn]
    refine ⟨f, b ++ (nt ++ (T ++ w)), ⟨rfl, h6, fun L T' ind => ?_⟩, ?_, fun e => ?_⟩
    · simp [Node.setFormat, Node.stringify, Node.ty, Node.name, Node.entries, Node.children, childrenStringify, hd,
        h3.text.2, h5]
      rw [← hb]; cases ty <;> simp
    · simp; omega
    · exact .leaf (hs (by simp at e; omega)) h2 h3.text.1 h4
  | @leafKeyword ty name es e fe f span tt nt T w t r h1 hn h2 h3 hf hl hd hw ht h5 h6 =>
    obtain ⟨b, hb, hl', hs⟩ := tySrc_snug h1
    have hd' : name.display = nt := by simp [Ident.display, hn]
    refine ⟨f, b ++ (nt ++ (T ++ (w ++ t))), ⟨rfl, h6, fun L T' ind => ?_⟩, ?_, fun e => ?_⟩
    · have hes : displayEntries (es ++ [e]) = T ++ (w ++ t) := by
        have : ∀ l : List Entry, displayEntries (l ++ [e]) = displayEntries l ++ displayEntries [e] := by
          intro l
          induction l with
          | nil => simp [displayEntries]
          | cons a l ih => simp [displayEntries, ih]
        rw [this, h3.text.2]
        simp [displayEntries, hf, hd]
      simp [Node.setFormat, Node.stringify, Node.ty, Node.name, Node.entries, Node.children, childrenStringify, hd',
        hes, h5]
      rw [← hb]; cases ty <;> simp
    · simp; omega
    · simp only [semNode, List.map_append, List.map_cons, List.map_nil]
      exact .leafKeyword (hs (by simp at e; omega)) h2 h3.text.1 hw ht
  | @block k ty name es d f span tt nt T w D v u r h1 hn h2 h3 h4 hw hd h6 hu h7 h8 ih =>
    obtain ⟨b, hb, hl', hs⟩ := tySrc_snug h1
    obtain ⟨body, i1, i2, i3, i4⟩ := ih
    have hd' : name.display = nt := by simp [Ident.display, hn]
    refine ⟨f, b ++ (nt ++ (T ++ (w ++ '{' :: (body ++ '}' :: f.beforeTerminator)))), ⟨rfl, h8, fun L T' ind => ?_⟩, ?_, fun e => ?_⟩
    · simp [Node.setFormat, Node.stringify, Node.ty, Node.name, Node.entries, Node.children,
        childrenStringify_parsed i1 i2, hd', h3.text.2, hw]
      rw [← hb]; cases ty <;> simp
    · rw [h7]; simp; omega
    · rw [h7] at e
      simp only [List.length_append, List.length_cons] at e
      have eu : u = [] := List.length_eq_zero_iff.mp (by omega)
      have ev : v = f.beforeTerminator := by rw [h7, eu, List.append_nil]
      refine .block (hs (by omega)) h2 h3.text.1 h4 (i4 (by omega)) ?_
      rw [ev]
      rcases h6 with h6 | ⟨w', C, h6, hw', hC⟩
      · rw [h6]; exact .none
      · rw [h6]; exact .blocks hw' hC
  | @last k r B n hB ht ih =>
    obtain ⟨f, body, i1, i2, i3⟩ := ih
    have ht : f.terminator = [] := by simpa [termOf, i1.1] using ht
    refine ⟨n, [], f, _, rfl, i1.all (X := []) (fun _ => rfl), ?_, fun e => ?_⟩
    · simpa [ht] using i2
    · exact .last (i3 (by simpa [ht] using e))
  | @lastTerm k r B m L n hB hm hL ht ih =>
    obtain ⟨f, body, i1, i2, i3⟩ := ih
    have hft : termOf n = f.terminator := by simp [termOf, i1.1]
    have hmp := List.length_pos_iff.mpr (termText_len hm)
    have hle : f.terminator.length ≤ m.length := by
      rcases ht with ht | ⟨ht, _⟩
      · exact Nat.le_of_eq (by rw [← hft, ht])
      · rw [← hft, ht]; simp
    refine ⟨n, [], f, _, rfl, i1.all (X := []) (fun _ => rfl), ?_, fun e => ?_⟩
    · simp; omega
    · refine .lastTerm (i3 ?_) hm hL
      simp at e; omega
  | @lastSlash r q B n hB hL ht ih =>
    obtain ⟨f, body, i1, i2, i3⟩ := ih
    have ht : f.terminator = [] := by simpa [termOf, i1.1] using ht
    refine ⟨n, [], f, _, rfl, i1.all (X := []) (fun _ => rfl), ?_, fun e => ?_⟩
    · simp [ht]; omega
    · exact .lastSlash (i3 (by simp [ht] at e; omega)) hL
  | @cons k r B m L T tr n n2 ns hB hm hL ht hT h2 ih1 ih2 =>
    obtain ⟨f, body, i1, i2, i3⟩ := ih1
    obtain ⟨n', ns', f', X, e1, j1, j2, j3⟩ := ih2
    obtain ⟨rfl, rfl⟩ := List.cons.inj e1
    have hft : termOf n = f.terminator := by simp [termOf, i1.1]
    have hle : f.terminator.length ≤ m.length := by
      rcases ht with ht | ⟨ht, _⟩
      · exact Nat.le_of_eq (by rw [← hft, ht])
      · rw [← hft, ht]; simp
    have hl : f'.leading = L := by rw [← h2]; simp [leadOf, j1.1]
    refine ⟨n, _, f, _, rfl, i1.all (X := L ++ X) (fun ind => by rw [j1.string ind, hl]), ?_, fun e => ?_⟩
    · simp at j2 ⊢; omega
    · simp only [List.length_append] at e j2 j3
      exact .cons (i3 (by omega)) hm hL (j3 (by omega))
  | @empty r L f span hL h1 h2 =>
    exact ⟨L, rfl, fun ind => by simp [Document.stringify, nodesStringify, h1, h2], Nat.le_refl _, fun _ => .empty hL⟩
  | @items r L T f span n ns hL hT h1 h2 ih =>
    obtain ⟨n', ns', f', X, e1, j1, j2, j3⟩ := ih
    obtain ⟨rfl, rfl⟩ := List.cons.inj e1
    have hl : f'.leading = L := by rw [← h1]; simp [leadOf, j1.1]
    refine ⟨L ++ (X ++ f.trailing), rfl, fun ind => ?_, ?_, fun e => ?_⟩
    · simp only [Document.stringify, h2, List.nil_append]
      rw [j1.string ind, hl, List.append_assoc]
    · simp at j2 ⊢; omega
    · simp only [List.length_append] at e j2 j3
      exact .items hL (j3 (by omega))

/-! ### Snug sources are printed -/

/-- The parts of a node, with all that is recorded. -/
theorem baseNode_snug {ty : Option Str} {tt nm nt Y y z : Str} {ch : Option (Str × Document)}
    {es : List Entry} {total : Nat}
    (h1 : SnugTy ty tt) (h2 : StrText nt nm) (hY : Ends Y) (e6 : entriesP total Y = .ok es y)
    (h4 : childrenP total (baseNode total) y = .ok ch z) {bt q t q' r : Str}
    (h6 : tailText total (baseNode total) ch.isSome z = .ok bt q)
    (h7 : takeP (opt nodeTerminator) q = .ok t q') (h8 : nodeSpace0 q = .ok () r) :
    ∃ (i : Option Ident) (name : Ident) (sp : Span),
      baseNode total (tt ++ (nt ++ Y)) = .ok (.mk i name es (ch.map Prod.snd)
        (some { beforeChildren := (ch.map Prod.fst).getD [], beforeTerminator := bt, terminator := t }) sp) r ∧
      (match (motive := Option Ident → Str) i with | some t => ['('] ++ t.display ++ [')'] | none => []) = tt ∧ name.display = nt ∧
      i.map Ident.value = ty ∧ name.value = nm := by
  have hne := h2.ne
  have h2 := StrTok.text h2
  have hs := (TyTok.text (h1.text nt) hne).starts (h2.starts.append Y)
  obtain ⟨e1, e2⟩ := hs.notEnd
  have e8 := identifier_eq (total := total) (h2 _ hY)
  have hst := h2.starts.append Y
  obtain ⟨o, e3, ho⟩ : ∃ o, opt (tyP total) (tt ++ (nt ++ Y)) = .ok o (nt ++ Y) ∧
      ((o = none ∧ ty = none ∧ tt = []) ∨ ∃ i it, o = some ([], i, []) ∧ i.repr = some it ∧ ty = some i.value ∧
        tt = '(' :: (it ++ [')'])) := by
    cases h1 with
    | none => exact ⟨none, opt_none (tyP_back (h2.not_paren _)), Or.inl ⟨rfl, rfl, rfl⟩⟩
    | @some i it hi =>
      obtain ⟨id, e, hv⟩ := tyP_tok (b := []) (a := []) (StrTok.text hi) Sp.nil Sp.nil total (nt ++ Y)
      obtain ⟨it', e', hr, _⟩ := tyP_exact e
      simp only [List.nil_append, List.cons.injEq, true_and] at e'
      have := List.append_cancel_right e'
      subst this
      refine ⟨some ([], id, []), opt_some ?_, Or.inr ⟨id, it, rfl, hr, by rw [hv], rfl⟩⟩
      simpa using e
  have e4 : takeP nodeSpace0 (nt ++ Y) = .ok [] (nt ++ Y) := takeP_nil hst.solid.nodeSpace0
  rw [baseNode_unfold]
  unfold baseNodeF
  rw [bind_eq e1, bind_here, bind_eq e2, bind_eq e3, bind_eq e4, bind_eq (cutErr_eq e8)]
  simp only [Option.some.injEq, hne, if_false]
  rw [bind_eq e6, bind_eq h4]
  unfold tailP
  rw [bind_eq (by rw [bind_eq h6, bind_eq (peek_eq h7)]; rfl), bind_eq h8, bind_here]
  rcases ho with ⟨rfl, rfl, rfl⟩ | ⟨i, it, rfl, hr, rfl, rfl⟩
  · cases ch with
    | none => exact ⟨_, _, _, rfl, rfl, rfl, rfl, rfl⟩
    | some c => exact ⟨_, _, _, rfl, rfl, rfl, rfl, rfl⟩
  · have hd : i.display = it := by simp [Ident.display, hr]
    cases ch with
    | none => exact ⟨_, _, _, rfl, by simp [hd], rfl, rfl, rfl⟩
    | some c => exact ⟨_, _, _, rfl, by simp [hd], rfl, rfl, rfl⟩

/-- As `TailAt`, for space that is recorded. -/
def TailKept (v r : Str) : Prop := ∀ total, tailText total (baseNode total) true (v ++ r) = .ok v r

theorem Spec.SnugTail.kept {v r : Str} {k : Bool} (h : SnugTail v) (hr : Follow k r) : TailKept v r := by
  intro total
  obtain ⟨f1, f2, f3, f4⟩ := hr.facts
  have h0 : nodeSpace0 r = .ok () r := WSp.nil _ f1
  cases h with
  | none =>
    unfold tailText
    rw [if_pos rfl]
    apply takeP_nil (a := Option.none)
    apply opt_none
    unfold slashdashedChildrenF
    rw [List.nil_append, bind_eq h0]
    exact void_back (sep1_back (f2 total))
  | @blocks w C hw hC =>
    have h2 : BlocksRun C := hC.reads
    have hv : Space0 [] r := h0
    have h4 : slashdashedChildrenF total (baseNode total) (w ++ (C ++ r)) = .ok () r := by
      have := h2.take (v := []) hv f1 total fun _ => f2 total
      unfold slashdashedChildrenF at this ⊢
      have h0 : nodeSpace0 (C ++ r) = .ok () (C ++ r) := WSp.nil _ (h2.1.append _).nodeSpace
      have h0' : nodeSpace0 (w ++ (C ++ r)) = .ok () (C ++ r) := hw.slash h2.1 (r := r)
      rw [List.nil_append, bind_eq h0] at this
      rw [bind_eq h0']
      exact this
    unfold tailText
    rw [if_pos rfl]
    apply takeP_eq (a := some ())
    rw [List.append_assoc]
    exact opt_some h4

/-- What a snug category means to the parser. -/
def SnugReads : Cat → Str → Str → Prop
  | .node k d, r, B => Follow k r → ∀ total, ∃ n f x, baseNode total (B ++ r) = .ok n r ∧ semNode id n = d ∧ Shows n f B ∧
      takeP (opt nodeTerminator) r = .ok f.terminator x
  | .items ds, r, T => DocEnd r → ∀ total p L, leadingItems (baseNode total) p = .ok L (T ++ r) →
      ∃ n ns q q1 q2 u L' f X, nodeF (baseNode total) p = .ok n q ∧ SepMore (nodeF (baseNode total)) nodeTerminator q ns q1 ∧
        semNodes id (n :: ns) = ds ∧ opt nodeTerminator q1 = .ok u q2 ∧ leadingItems (baseNode total) q2 = .ok L' r ∧
        ShowAll n ns f X ∧ f.leading = L ∧ X ++ L' = T
  | .nodes ds, r, D => DocEnd r → ∀ total, ∃ d, nodesF total (baseNode total) (D ++ r) = .ok d r ∧ semDoc id d = ds ∧
      d.format.isSome = true ∧ ∀ ind, d.stringify ind = D
  | _, _, _ => True

theorem nodeF_shows {total : Nat} {n : Node} {f : NodeFmt} {B p L r : Str} (h : baseNode total (B ++ r) = .ok n r)
    (hs : Shows n f B) (hp : leadingItems (baseNode total) p = .ok L (B ++ r)) :
    ∃ n', nodeF (baseNode total) p = .ok n' r ∧ semNode id n' = semNode id n ∧ Shows n' { f with leading := L } B := by
  unfold nodeF
  rw [bind_eq hp, bind_eq h]
  exact ⟨_, rfl, semNode_setFormat _ _, hs.lead L⟩

omit [FloatIO] in
theorem takeTerm_back {r t x : Str} (h : nodeTerminator r = .back) (ht : takeP (opt nodeTerminator) r = .ok t x) : t = [] := by
  rw [takeP_nil (opt_none h)] at ht
  cases ht
  rfl

omit [FloatIO] in
theorem takeTerm_ok {m y t x : Str} (h : nodeTerminator (m ++ y) = .ok () y) (ht : takeP (opt nodeTerminator) (m ++ y) = .ok t x) :
    t = m := by
  rw [takeP_eq (opt_some h)] at ht
  cases ht
  rfl

theorem Spec.Snug.reads {c : Cat} {r t : Str} (h : Snug c r t) : SnugReads c r t := by
  induction h with
  | @leaf k ty nm tt nt T w r ds h1 h2 h3 h4 =>
    intro hr total
    obtain ⟨f1, _, ⟨x, q', f3⟩, f4, _⟩ := hr.facts
    obtain ⟨m1, m2⟩ := h4.reads hr.mid
    obtain ⟨es, e6, e7⟩ := (EntsTok.text h3).entries m1 total
    have hd : displayEntries es = T := (List.append_cancel_right (entriesP_text e6).1).symm
    obtain ⟨i, name, sp, g1, g2, g3, g4, g5⟩ := baseNode_snug h1 h2 ((EntsTok.text h3).follow m1).1 e6 (ch := none) (z := w ++ r)
      (opt_none (by rw [bind_eq (takeP_eq (m2 total))]; exact bind_back (bind_back (lit_back.mpr f4))))
      (bt := w) (q := r) (takeP_eq (m2 total)) f3 (WSp.nil _ f1)
    simp only [List.append_assoc]
    refine ⟨_, _, _, g1, ?_, ⟨rfl, rfl, fun L T' ind => ?_⟩, f3⟩
    · simp [semNode, g4, g5, e7, semOptDoc]
    · simp only [Node.setFormat, Node.stringify, Node.ty, Node.name, Node.entries, Node.children, childrenStringify, g3, hd,
        Option.map_none]
      simp
      rw [← g2]; cases i <;> simp
  | @leafKeyword ty nm tt nt T w t r ds d h1 h2 h3 h4 h5 =>
    intro hr total
    obtain ⟨f1, f2, ⟨x, q', f3⟩, f4, f5⟩ := hr.facts
    have hs := (EntTok.text h5.entry).1
    obtain ⟨⟨q, l1⟩, l2, l3⟩ := ELead.text h4 hs total (t ++ r) (hs.append r)
    obtain ⟨e, b1, b2⟩ := h5.keyword total r
    obtain ⟨e', b3, b4⟩ := entryLeading_nodeEntry l2 b1
    have n1 : nodeSpace1 r = .back := void_back (rep1_back f1)
    have n0 : nodeSpace0 r = .ok () r := WSp.nil _ f1
    have e0 : entriesP total (w ++ (t ++ r)) = .ok [e'] r := by
      unfold entriesP
      refine rep0_cons ?_ ?_ (rep0_nil (bind_back (peek_back n1)))
      · rw [bind_eq (peek_eq l1)]; exact b3
      · obtain ⟨c, q, rfl, _⟩ := hs
        simp only [List.length_append, List.length_cons]; omega
    obtain ⟨a1, es, a2, a3⟩ := (EntsTok.text h3).more l3 e0
    have hd : displayEntries es = T ++ (w ++ t) := by
      have := (entriesP_text a2).1
      have e : T ++ (w ++ (t ++ r)) = (T ++ (w ++ t)) ++ r := by simp
      rw [e] at this
      exact (List.append_cancel_right this).symm
    have m0 : beforeNodeChildrenF total (baseNode total) r = .ok () r := by
      unfold beforeNodeChildrenF
      rw [bind_eq (a := ()) (r := r)]
      · exact n0
      · rw [alt_right (bind_back n1), alt_right (bind_back n1), alt_right (bind_back n1)]
        exact n0
    obtain ⟨i, name, sp, g1, g2, g3, g4, g5⟩ := baseNode_snug h1 h2 a1.1 a2 (ch := none) (z := r)
      (opt_none (by rw [bind_eq (takeP_nil m0)]; exact bind_back (bind_back (lit_back.mpr f4))))
      (bt := []) (q := r) (takeP_nil m0) f3 n0
    simp only [List.append_assoc]
    refine ⟨_, _, _, g1, ?_, ⟨rfl, rfl, fun L T' ind => ?_⟩, f3⟩
    · simp [semNode, g4, g5, a3, semOptDoc, b4, b2]
    · simp only [Node.setFormat, Node.stringify, Node.ty, Node.name, Node.entries, Node.children, childrenStringify, g3, hd,
        Option.map_none]
      simp
      rw [← g2]; cases i <;> simp
  | @block k ty nm tt nt T w D v r ds cs h1 h2 h3 h4 h5 h6 ih =>
    intro hr total
    obtain ⟨f1, _, ⟨x, q', f3⟩, f4, _⟩ := hr.facts
    obtain ⟨m1, m2⟩ := (h4 (D ++ '}' :: (v ++ r))).reads (Or.inl (Or.inr (Or.inl ⟨_, rfl⟩)))
    obtain ⟨es, e6, e7⟩ := (EntsTok.text h3).entries m1 total
    have hd : displayEntries es = T := (List.append_cancel_right (entriesP_text e6).1).symm
    obtain ⟨d, d1, d2, d3, d4⟩ := ih (Or.inr ⟨_, rfl⟩) total
    obtain ⟨i, name, sp, g1, g2, g3, g4, g5⟩ := baseNode_snug h1 h2 ((EntsTok.text h3).follow m1).1 e6 (ch := some (w, d)) (z := v ++ r)
      (opt_some (by
        rw [bind_eq (takeP_eq (m2 total))]
        unfold nodeChildrenF
        rw [bind_eq (by rw [bind_eq (lit_one _ _), bind_eq d1, bind_eq (cutErr_eq (lit_one _ _))]; rfl)]
        rfl)) (bt := v) (q := r) (h6.kept hr total) f3 (WSp.nil _ f1)
    simp only [List.append_assoc, List.cons_append]
    refine ⟨_, _, _, g1, ?_, ⟨rfl, rfl, fun L T' ind => ?_⟩, f3⟩
    · simp [semNode, g4, g5, e7, semOptDoc, d2]
    · simp only [Node.setFormat, Node.stringify, Node.ty, Node.name, Node.entries, Node.children, g3, hd,
        Option.map_some, childrenStringify_parsed d3 d4]
      simp
      rw [← g2]; cases i <;> simp
  | @last k r B d hB ih =>
    intro hr total p L hp
    obtain ⟨n, f, x, h1, h2, h3, h4⟩ := ih (Or.inl hr.nodeEnd) total
    obtain ⟨n', h5, h6, h7⟩ := nodeF_shows h1 h3 hp
    have ht := takeTerm_back hr.terminator h4
    exact ⟨n', [], r, r, r, _, _, _, _, h5, .nil hr.terminator, by simp [semNodes, h6, h2], opt_none hr.terminator,
      Lead.nil total r hr.solid, h7.all (X := []) (fun _ => rfl), rfl, by simp [ht]⟩
  | @lastTerm k r B m L d hB hm hL ihB =>
    intro hr total p L' hp
    have e : (B ++ (m ++ L)) ++ r = B ++ (m ++ (L ++ r)) := by simp
    rw [e] at hp
    obtain ⟨n, f, x, h1, h2, h3, h4⟩ := ihB (Or.inl (Or.inr (Or.inr ⟨_, _, termText_eq hm⟩))) total
    obtain ⟨n', h5, h6, h7⟩ := nodeF_shows h1 h3 hp
    have ht := takeTerm_ok (termText_eq hm) h4
    have h8 := leadingItems_of (total := total) hL.reads hr.solid
    exact ⟨n', [], _, _, _, _, L, _, _, h5, .stop (termText_eq hm) (len_lt (termText_len hm)) (nodeF_end h8 hr),
      by simp [semNodes, h6, h2], opt_some (termText_eq hm), h8, h7.all (X := []) (fun _ => rfl), rfl, by simp [ht]⟩
  | @lastSlash r q B d hB hL ihB =>
    intro hr total p L' hp
    rw [List.append_assoc] at hp
    have hn : Next ('/' :: '-' :: q ++ r) := (hL.reads hr.solid).1 _ rfl
    obtain ⟨n, f, x, h1, h2, h3, h4⟩ := ihB (Or.inr ⟨rfl, hn⟩) total
    obtain ⟨n', h5, h6, h7⟩ := nodeF_shows h1 h3 hp
    have ht := takeTerm_back hn.facts.2.2.1 h4
    have h8 := leadingItems_of (total := total) hL.reads hr.solid
    exact ⟨n', [], _, _, _, _, _, _, _, h5, .nil hn.facts.2.2.1, by simp [semNodes, h6, h2], opt_none hn.facts.2.2.1, h8,
      h7.all (X := []) (fun _ => rfl), rfl, by simp [ht]⟩
  | @cons k r B m L T d ds hB hm hL hT ihB ihT =>
    intro hr total p L' hp
    have e : (B ++ (m ++ (L ++ T))) ++ r = B ++ (m ++ (L ++ (T ++ r))) := by simp
    rw [e] at hp
    obtain ⟨n, f, x, h1, h2, h3, h4⟩ := ihB (Or.inl (Or.inr (Or.inr ⟨_, _, termText_eq hm⟩))) total
    obtain ⟨n', h5, h6, h7⟩ := nodeF_shows h1 h3 hp
    have ht := takeTerm_ok (termText_eq hm) h4
    have hst : Starts T := hT.text.reads.1
    have h8 := leadingItems_of (total := total) hL.reads (hst.append r).solid
    obtain ⟨n'', ns, q', q1, q2, u, L'', f', X, i1, i2, i3, i4, i5, i6, i7, i8⟩ := ihT hr total _ _ h8
    exact ⟨n', n'' :: ns, _, q1, q2, u, L'', _, _, h5, .cons (termText_eq hm) (len_lt (termText_len hm)) i1 i2,
      by rw [semNodes, h6, h2, i3], i4, i5, h7.all (X := L ++ X) (fun ind => by rw [i6.string ind, i7]), rfl,
      by simp [ht, i8]⟩
  | @empty r L hL =>
    intro hr total
    have hl : leadingItems (baseNode total) r = .ok [] r := Lead.nil total _ hr.solid
    have h1 : sep0 (nodeF (baseNode total)) nodeTerminator r = .ok [] r := by
      unfold sep0
      rw [nodeF_end hl hr]
    unfold nodesF
    rw [bind_eq (leadingItems_of hL.reads hr.solid), bind_here, bind_eq h1, bind_here, bind_eq (opt_none hr.terminator), bind_eq hl]
    exact ⟨_, rfl, rfl, rfl, fun ind => by simp [Document.stringify, nodesStringify, giveLeading]⟩
  | @items r L T ds hL hT ihT =>
    intro hr total
    rw [List.append_assoc]
    have hst : Starts T := hT.text.reads.1
    have hs := hst.append r
    obtain ⟨n, ns, q, q1, q2, u, L', f, X, h1, h2, h3, h4, h5, h6, h7, h8⟩ := ihT hr total _ _ (Lead.nil total _ hs.solid)
    unfold nodesF
    have h9 : sep0 (nodeF (baseNode total)) nodeTerminator (T ++ r) = .ok (n :: ns) q1 := by
      have := sepMore_of (Strict.nodeF (Strict.baseNode total)).sfx h2
      rw [List.nil_append] at h1
      unfold sep0
      rw [h1]
      simp only
      rw [this]
    rw [bind_eq (leadingItems_of hL.reads hs.solid), bind_here, bind_eq h9, bind_here, bind_eq h4, bind_eq h5]
    refine ⟨_, rfl, ?_, rfl, fun ind => ?_⟩
    · have := giveLeading_sem (g := id) L (n :: ns)
      rw [h3] at this
      exact this
    · simp only [h6.1, Document.stringify, nodesStringify, List.nil_append]
      rw [h6.2.2 L ind, ← h8]
      simp

/-! ### Whole inputs -/

theorem snugDocument_reads {ds : List (SNode Value)} {t : Str} (h : Snug (.nodes ds) [] t) (total : Nat) :
    ∃ d, nodesF total (baseNode total) t = .ok d [] ∧ semDoc id d = ds ∧ d.format.isSome = true ∧ ∀ ind, d.stringify ind = t := by
  have hr : DocEnd [] := Or.inl rfl
  obtain ⟨d, h1, h2⟩ := h.reads hr total
  rw [List.append_nil] at h1
  exact ⟨d, h1, h2⟩

theorem documentDisplay_iff {s : Str} {d : Document} (h : Document.parse s = .ok d) :
    d.display = s ↔ SnugDocument (semDoc id d) s := by
  have e1 : ∀ (d : Document) (b : Str), semDoc id (d.prependLeading b) = semDoc id d := by
    intro d b; cases d; rfl
  have e2 : ∀ (d : Document) (b : Str), d.format.isSome = true → (d.prependLeading b).display = b ++ d.display := by
    intro d b hf
    cases d with
    | mk ns f sp =>
      cases f with
      | none => cases hf
      | some f => simp [Document.prependLeading, Document.display, Document.stringify, Document.format, Document.nodes]
  constructor
  · intro hd
    obtain ⟨D, d', hD, ⟨rfl, rfl⟩ | ⟨rfl, rfl⟩⟩ := parse_exact h
    · obtain ⟨body, _, h2, _, h4⟩ := hD.fits
      exact ⟨s, Or.inl rfl, h4 (by rw [← h2 0]; exact congrArg List.length hd)⟩
    · obtain ⟨body, h1, h2, _, h4⟩ := hD.fits
      rw [e2 _ _ h1] at hd
      have hd := (List.cons.inj hd).2
      rw [e1]
      exact ⟨D, Or.inr rfl, h4 (by rw [← h2 0]; exact congrArg List.length hd)⟩
  · rintro ⟨t, rfl | rfl, ht⟩
    · obtain ⟨d', h1, _, _, h4⟩ := snugDocument_reads ht (utf8Len s)
      obtain ⟨_, ⟨s1, d2, e, _, _⟩ | ⟨_, h2⟩⟩ := documentP_inv (tryParse_ok.mp h)
      · obtain ⟨d0, h0, _⟩ := snugDocument_reads ht 0
        exact absurd e (nodesF_not_bom h0 s1)
      · rw [h1] at h2
        cases h2
        exact h4 0
    · obtain ⟨d', h1, _, h3, h4⟩ := snugDocument_reads ht (utf8Len (Char.ofNat 0xFEFF :: t))
      obtain ⟨_, ⟨s1, d2, e, h2, rfl⟩ | ⟨h2, _⟩⟩ := documentP_inv (tryParse_ok.mp h)
      · obtain ⟨_, rfl⟩ := List.cons.inj e
        rw [h1] at h2
        cases h2
        rw [e2 _ _ h3]
        exact congrArg _ (h4 0)
      · exact absurd rfl (h2 t)

theorem nodeDisplay_iff {s : Str} {n : Node} (h : Node.parse s = .ok n) :
    n.display = s ↔ SnugNode (semNode id n) s := by
  have e0 : ∀ (n : Node) f g sp, semNode id (((n.setFormat f).setFormat g).setSpan sp) = semNode id n := by
    intro n f g sp; cases n; rfl
  have e1 : ∀ (n : Node) (f : NodeFmt) (B l v : Str) (sp : Span), Shows n f B →
      (((n.setFormat (n.format.map fun f => { f with leading := l })).setFormat
        ((n.setFormat (n.format.map fun f => { f with leading := l })).format.map fun f => { f with trailing := v })).setSpan
        sp).display = l ++ (B ++ (f.terminator ++ v)) := by
    intro n f B l v sp hS
    have := hS.2.2 l v 0
    rw [← this, hS.1]
    cases n; rfl
  have h := tryParse_ok.mp h
  unfold paddedNode at h
  rw [bind_here, bind_ok] at h
  obtain ⟨n', s1, h1, h⟩ := h
  rw [bind_ok] at h
  obtain ⟨o, s2, h2, h⟩ := h
  rw [bind_ok] at h
  obtain ⟨v, s3, h3, h⟩ := h
  rw [bind_here] at h
  obtain ⟨rfl, rfl⟩ := pure_ok.mp h
  obtain ⟨l, q, n0, h4, h5, rfl⟩ := nodeF_inv h1
  obtain ⟨rfl, hL⟩ := leadingItems_exact (baseOk _ _) (Nat.le_refl _) h4 (Or.inr ⟨_, _, h5⟩)
  have hq : nodeSpace q = .back := (lineSpace_back_iff.mp (leadingItems_inv h4).2.2).1
  obtain ⟨B, rfl, _, hB, hs1, _, hterm⟩ := baseOk _ _ _ _ _ (Nat.le_refl _) hq h5
  obtain ⟨e2, hv⟩ := lineEnd_inv h3
  rw [List.append_nil] at e2
  subst e2
  rw [e0]
  have hM : s1 = s2 ∧ s1 = [] ∧ o = none ∨ ∃ m, s1 = m ++ s2 ∧ TermText m s2 ∧ LSpace [] s2 := by
    rcases opt_ok.mp h2 with ⟨u, _, h2⟩ | ⟨ho, rfl, h2⟩
    · obtain ⟨m, rfl, hm⟩ := nodeTerminator_inv h2
      exact Or.inr ⟨m, rfl, hm, hv⟩
    · left
      have hb := lineSpace_of_terminator_back hs1 h2
      have : takeP (rep0 (lineSpace <+> nodeSpace)) s2 = .ok [] s2 := takeP_nil (rep0_nil (by rw [alt_right hb, hs1]))
      rw [this] at h3
      cases h3
      exact ⟨rfl, rfl, ho⟩
  constructor
  · intro hd
    obtain ⟨f, body, hS, hle, hsn⟩ := hB.fits
    rw [e1 _ _ _ _ _ _ hS] at hd
    have hd := congrArg List.length hd
    simp only [List.length_append] at hd
    have hft : termOf n0 = f.terminator := by simp [termOf, hS.1]
    have htl : f.terminator.length + s2.length ≤ s1.length := by
      rcases hM with ⟨_, rfl, _⟩ | ⟨m, rfl, hm, _⟩
      · have : f.terminator = [] := by
          rcases hterm with ⟨h, _⟩ | ⟨u, x, h, _⟩
          · rw [← hft, h]
          · cases h
        simp_all
      · rcases hterm with ⟨h, _⟩ | ⟨u, x, h, h'⟩
        · rw [← hft, h]; simp
        · rw [termText_eq hm] at h
          cases h
          have := List.append_cancel_right h'
          rw [← hft, ← this]; simp
    refine ⟨false, l, B, s1, rfl, hL, hsn (by omega), ?_⟩
    rcases hM with ⟨_, h, _⟩ | ⟨m, h⟩
    · exact Or.inl h
    · exact Or.inr ⟨m, s2, h⟩
  · rintro ⟨k, L, B', M, e1', hL', hB', hM'⟩
    have hst : Starts B' := hB'.text.reads.1
    have hs := (hst.append M).solid
    have hN : NodeEnd M := by
      rcases hM' with rfl | ⟨m, v, rfl, hm, _⟩
      · exact Or.inl rfl
      · exact Or.inr (Or.inr ⟨_, _, termText_eq hm⟩)
    have h6 := leadingItems_of (total := utf8Len (l ++ (B ++ s1))) hL'.reads hs
    rw [← e1', h4] at h6
    obtain ⟨rfl, e6⟩ : l = L ∧ B ++ s1 = B' ++ M := by
      injection h6 with a b
      exact ⟨a, b⟩
    have hr : Follow k M := Or.inl hN
    obtain ⟨n1, f, x, h7, _, hS, hx⟩ := hB'.reads hr (utf8Len (l ++ (B ++ s1)))
    rw [← e6, h5] at h7
    obtain ⟨rfl, rfl⟩ : n0 = n1 ∧ s1 = M := by
      injection h7 with a b
      exact ⟨a, b⟩
    obtain rfl := List.append_cancel_right e6
    rw [e1 _ _ _ _ _ _ hS]
    obtain ⟨hx1, a, hx2⟩ := takeP_inv (Sfx.opt Strict.nodeTerminator.sfx) hx
    rw [h2] at hx2
    obtain rfl : s2 = x := by injection hx2
    rw [hx1]

end

end Kdl
