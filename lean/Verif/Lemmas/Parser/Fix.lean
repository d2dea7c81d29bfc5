import Verif.Lemmas.Parser.Inv
/-
The recursive parsers satisfy their recursion equations: the budgets of the model
do not matter.
-/

namespace Kdl

variable {α β : Type}

/-- The parsers agree on inputs shorter than `n`. -/
def Agree (n : Nat) (p q : P α) : Prop := ∀ s, s.length < n → p s = q s

protected theorem Agree.refl (n : Nat) (p : P α) : Agree n p p := fun _ _ => rfl
protected theorem Agree.mono {n m : Nat} {p q : P α} (h : Agree m p q) (hn : n ≤ m) : Agree n p q :=
  fun s hs => h s (by omega)

protected theorem Agree.bind {n : Nat} {p p' : P α} {f f' : α → P β} (hp : Agree n p p') (hs : Sfx p)
    (hf : ∀ a, Agree n (f a) (f' a)) : Agree n (p >>= f) (p' >>= f') := by
  intro s hl
  have := hp s hl
  cases h : p s with
  | ok a r =>
    rw [bind_eq h, bind_eq (this ▸ h)]
    exact hf a r (Nat.lt_of_le_of_lt (hs.le h) hl)
  | back => rw [bind_back h, bind_back (this ▸ h)]
  | cut => rw [bind_cut h, bind_cut (this ▸ h)]
  | crash => rw [bind_crash h, bind_crash (this ▸ h)]

/-- After a parser that consumes, one more character may be allowed. -/
protected theorem Agree.bind_strict {n : Nat} {p : P α} {f f' : α → P β} (hs : Strict p)
    (hf : ∀ a, Agree n (f a) (f' a)) : Agree (n + 1) (p >>= f) (p >>= f') := by
  intro s hl
  cases h : p s with
  | ok a r =>
    rw [bind_eq h, bind_eq h]
    exact hf a r (by have := hs.lt h; omega)
  | back => rw [bind_back h, bind_back h]
  | cut => rw [bind_cut h, bind_cut h]
  | crash => rw [bind_crash h, bind_crash h]

protected theorem Agree.alt {n : Nat} {p p' q q' : P α} (hp : Agree n p p') (hq : Agree n q q') :
    Agree n (p <+> q) (p' <+> q') := by
  intro s hl
  simp only [P.alt, hp s hl, hq s hl]

protected theorem Agree.opt {n : Nat} {p p' : P α} (hp : Agree n p p') : Agree n (opt p) (opt p') := by
  intro s hl; simp only [Kdl.opt, hp s hl]
protected theorem Agree.cutErr {n : Nat} {p p' : P α} (hp : Agree n p p') :
    Agree n (cutErr p) (cutErr p') := by
  intro s hl; simp only [Kdl.cutErr, hp s hl]
protected theorem Agree.void {n : Nat} {p p' : P α} (hp : Agree n p p') (hs : Sfx p) :
    Agree n (void p) (void p') := Agree.bind hp hs fun _ => .refl _ _
protected theorem Agree.takeP {n : Nat} {p p' : P α} (hp : Agree n p p') (hs : Sfx p) :
    Agree n (takeP p) (takeP p') :=
  Agree.bind (.refl _ _) .here fun _ => Agree.bind hp hs fun _ => .refl _ _

protected theorem Agree.rep0 {n : Nat} {p p' : P α} (hp : Agree n p p') :
    Agree n (rep0 p) (rep0 p') := by
  intro s hl
  induction hn : s.length using Nat.strongRecOn generalizing s with
  | ind k ih =>
    rw [rep0_unfold, rep0_unfold, ← hp s hl]
    cases h : p s with
    | ok a r =>
      simp only
      split
      · rename_i hlt
        rw [ih r.length (by omega) r (by omega) rfl]
      · rfl
    | _ => rfl

protected theorem Agree.sepMore {n : Nat} {p p' : P α} {sep : P β} (hp : Agree n p p') (hs : Sfx p)
    (hs' : Sfx p') : Agree n (sepMore p sep) (sepMore p' sep) := by
  intro s hl
  induction hn : s.length using Nat.strongRecOn generalizing s with
  | ind k ih =>
    rw [sepMore_unfold p sep hs, sepMore_unfold p' sep hs']
    cases h : sep s with
    | ok a r =>
      simp only
      split
      · rename_i hlt
        rw [← hp r (by omega)]
        cases h' : p r with
        | ok b r' =>
          simp only
          have := hs.le h'
          rw [ih r'.length (by omega) r' (by omega) rfl]
        | _ => rfl
      · rfl
    | _ => rfl

protected theorem Agree.bind_same {n : Nat} {p p' : P α} {f : α → P β} (h : Agree n p p') :
    Agree n (p >>= f) (p' >>= f) := by
  intro s hl
  have := h s hl
  cases h' : p s with
  | ok a r => rw [bind_eq h', bind_eq (this ▸ h')]
  | back => rw [bind_back h', bind_back (this ▸ h')]
  | cut => rw [bind_cut h', bind_cut (this ▸ h')]
  | crash => rw [bind_crash h', bind_crash (this ▸ h')]

protected theorem Agree.sep1 {n : Nat} {p p' : P α} {sep : P β} (hp : Agree n p p') (hs : Sfx p)
    (hs' : Sfx p') : Agree n (sep1 p sep) (sep1 p' sep) := by
  intro s hl
  unfold sep1
  exact Agree.bind hp hs (fun a => .bind_same (.sepMore hp hs hs')) s hl

protected theorem Agree.sep0 {n : Nat} {p p' : P α} {sep : P β} (hp : Agree n p p') (hs : Sfx p)
    (hs' : Sfx p') : Agree n (sep0 p sep) (sep0 p' sep) := by
  intro s hl
  unfold sep0
  rw [← hp s hl]
  cases h : p s with
  | ok a r =>
    simp only
    have := hs.le h
    rw [Agree.sepMore hp hs hs' r (by omega)]
  | _ => rfl

/-! ### Comments -/

theorem commentedBlockN_agree : ∀ (k m : Nat), k ≤ m → Agree k (commentedBlockN k) (commentedBlockN m)
  | 0, _, _ => fun s hs => absurd hs (by omega)
  | k + 1, 0, h => absurd h (by omega)
  | k + 1, m + 1, h => by
    have ih := commentedBlockN_agree k m (by omega)
    have hst : Strict (void (rep1 (satisfy fun c => c != '*' && c != '/'))) := (Strict.rep1 (.satisfy _)).void
    show Agree (k + 1) (_ <+> _) (_ <+> _)
    refine .alt (.refl _ _) ?_
    intro s hl
    show (P.alt _ _ >>= _) s = (P.alt _ _ >>= _) s
    have hhead : Agree (k + 1)
        ((do lit ['/', '*']; cutErr (commentedBlockN k)) <+> lit ['*'] <+> lit ['/'] <+>
          void (rep1 (satisfy fun c => c != '*' && c != '/')))
        ((do lit ['/', '*']; cutErr (commentedBlockN m)) <+> lit ['*'] <+> lit ['/'] <+>
          void (rep1 (satisfy fun c => c != '*' && c != '/'))) :=
      .alt (.bind_strict (.lit (by simp)) fun _ => .cutErr ih) (.refl _ _)
    have hh := hhead s hl
    have hstr : Strict ((do lit ['/', '*']; cutErr (commentedBlockN k)) <+> lit ['*'] <+> lit ['/'] <+>
          void (rep1 (satisfy fun c => c != '*' && c != '/'))) :=
      .alt (.bind_left (.lit (by simp)) fun _ => (Strict.commentedBlockN k).sfx.cutErr)
        (.alt (.lit (by simp)) (.alt (.lit (by simp)) hst))
    cases h' : ((do lit ['/', '*']; cutErr (commentedBlockN k)) <+> lit ['*'] <+> lit ['/'] <+>
          void (rep1 (satisfy fun c => c != '*' && c != '/'))) s with
    | ok a r =>
      rw [bind_eq h', bind_eq (hh ▸ h')]
      exact ih r (by have := hstr.lt h'; omega)
    | back => rw [bind_back h', bind_back (hh ▸ h')]
    | cut => rw [bind_cut h', bind_cut (hh ▸ h')]
    | crash => rw [bind_crash h', bind_crash (hh ▸ h')]

/-- `commented_block`, without a budget. -/
def commentedBlock : P Unit := fun s => commentedBlockN (s.length + 1) s

theorem commentedBlockN_eq {k : Nat} {s : Str} (h : s.length < k) :
    commentedBlockN k s = commentedBlock s :=
  (commentedBlockN_agree (s.length + 1) k (by omega) s (by omega)).symm

theorem commentedBlock_unfold (s : Str) : commentedBlock s =
    (lit ['*', '/'] <+>
    (do
      (do lit ['/', '*']; cutErr commentedBlock) <+> lit ['*'] <+> lit ['/'] <+>
        void (rep1 (satisfy fun c => c != '*' && c != '/'))
      commentedBlock) : P Unit) s := by
  show commentedBlockN (s.length + 1) s = _
  have hag : Agree s.length (commentedBlockN s.length) commentedBlock :=
    fun q hq => commentedBlockN_eq hq
  have hst : Strict (void (rep1 (satisfy fun c => c != '*' && c != '/'))) := (Strict.rep1 (.satisfy _)).void
  have hhead : Agree (s.length + 1)
      ((do lit ['/', '*']; cutErr (commentedBlockN s.length)) <+> lit ['*'] <+> lit ['/'] <+>
        void (rep1 (satisfy fun c => c != '*' && c != '/')))
      ((do lit ['/', '*']; cutErr commentedBlock) <+> lit ['*'] <+> lit ['/'] <+>
        void (rep1 (satisfy fun c => c != '*' && c != '/'))) :=
    .alt (.bind_strict (.lit (by simp)) fun _ => .cutErr hag) (.refl _ _)
  have hh := hhead s (by omega)
  have hstr : Strict ((do lit ['/', '*']; cutErr (commentedBlockN s.length)) <+> lit ['*'] <+> lit ['/'] <+>
        void (rep1 (satisfy fun c => c != '*' && c != '/'))) :=
    .alt (.bind_left (.lit (by simp)) fun _ => (Strict.commentedBlockN _).sfx.cutErr)
      (.alt (.lit (by simp)) (.alt (.lit (by simp)) hst))
  show (_ <+> _ : P Unit) s = (_ <+> _ : P Unit) s
  have hlit : Agree (s.length + 1) (lit ['*', '/']) (lit ['*', '/']) := .refl _ _
  refine Agree.alt hlit ?_ s (by omega)
  intro q hq
  have hh := hhead q hq
  show (P.alt _ _ >>= _) q = (P.alt _ _ >>= _) q
  cases h' : ((do lit ['/', '*']; cutErr (commentedBlockN s.length)) <+> lit ['*'] <+> lit ['/'] <+>
        void (rep1 (satisfy fun c => c != '*' && c != '/'))) q with
  | ok a r =>
    rw [bind_eq h', bind_eq (hh ▸ h')]
    exact hag r (by have := hstr.lt h'; omega)
  | back => rw [bind_back h', bind_back (hh ▸ h')]
  | cut => rw [bind_cut h', bind_cut (hh ▸ h')]
  | crash => rw [bind_crash h', bind_crash (hh ▸ h')]

theorem multiLineComment_eq (s : Str) :
    multiLineComment s = (do lit ['/', '*']; cutErr commentedBlock : P Unit) s := by
  unfold multiLineComment
  refine Agree.bind_strict (n := s.length) (.lit (by simp)) (fun _ => .cutErr ?_) s (by omega)
  intro q hq
  exact commentedBlockN_eq (by omega)

section
variable [FloatIO]

/-! ### Entries -/

protected theorem Agree.nodeEntryF {n total : Nat} {e e' : P Entry} (h : Agree n e e') (hs : Sfx e)
    (hs' : Sfx e') : Agree (n + 1) (nodeEntryF total e) (nodeEntryF total e') := by
  unfold nodeEntryF entryLeadingF slashdashedEntriesF
  have h1 : Agree (n + 1) (do slashdash; e) (do slashdash; e') := .bind_strict .slashdash fun _ => h
  have s1 : Sfx (do slashdash; e : P Entry) := Strict.slashdash.sfx.bind fun _ => hs
  have s1' : Sfx (do slashdash; e' : P Entry) := Strict.slashdash.sfx.bind fun _ => hs'
  refine .bind (.takeP ?_ ?_) ?_ fun _ => .refl _ _
  · refine .bind (.refl _ _) .nodeSpace0 fun _ => .opt (.bind (.void (.sep1 h1 s1 s1') ?_) ?_ fun _ => .refl _ _)
    all_goals psolve
  all_goals psolve

theorem nodeEntryN_agree (total : Nat) : ∀ (k m : Nat), k ≤ m →
    Agree k (nodeEntryN total k) (nodeEntryN total m)
  | 0, _, _ => fun s hs => absurd hs (by omega)
  | k + 1, 0, h => absurd h (by omega)
  | k + 1, m + 1, h =>
    Agree.nodeEntryF (nodeEntryN_agree total k m (by omega)) (Strict.nodeEntryN total k).sfx
      (Strict.nodeEntryN total m).sfx

theorem nodeEntry_unfold (total : Nat) (s : Str) :
    nodeEntry total s = nodeEntryF total (nodeEntry total) s := by
  show nodeEntryF total (nodeEntryN total s.length) s = _
  refine Agree.nodeEntryF (n := s.length) ?_ (Strict.nodeEntryN _ _).sfx (Strict.nodeEntry _).sfx s (by omega)
  intro q hq
  exact (nodeEntryN_agree total (q.length + 1) s.length (by omega) q (by omega)).symm

/-! ### Nodes -/

section
variable {n total : Nat} {b b' : P Node}

protected theorem Agree.leadingItems (h : Agree n b b') (hs : Sfx b) :
    Agree n (leadingItems b) (leadingItems b') := by
  unfold Kdl.leadingItems
  refine .takeP (.rep0 (.alt (.refl _ _) (.bind (.refl _ _) ?_ fun _ => .void h hs))) ?_
  all_goals psolve

protected theorem Agree.nodeF (h : Agree n b b') (hs : Sfx b) : Agree n (nodeF b) (nodeF b') := by
  unfold Kdl.nodeF
  exact .bind (.leadingItems h hs) (Sfx.leadingItems hs) fun _ => .bind h hs fun _ => .refl _ _

protected theorem Agree.nodesF (h : Agree n b b') (hs : Strict b) (hs' : Strict b') :
    Agree n (nodesF total b) (nodesF total b') := by
  unfold Kdl.nodesF
  have s1 := (Strict.nodeF hs).sfx
  have s1' := (Strict.nodeF hs').sfx
  have s2 := Sfx.leadingItems hs.sfx
  refine .bind (.leadingItems h hs.sfx) s2 fun _ => .bind (.refl _ _) .here fun _ =>
    .bind (.sep0 (.nodeF h hs.sfx) s1 s1') ?_ fun _ => .bind (.refl _ _) .here fun _ =>
    .bind (.refl _ _) ?_ fun _ => .bind (.leadingItems h hs.sfx) s2 fun _ => .refl _ _
  all_goals psolve

protected theorem Agree.nodeChildrenF (h : Agree n b b') (hs : Strict b) (hs' : Strict b') :
    Agree (n + 1) (nodeChildrenF total b) (nodeChildrenF total b') := by
  unfold Kdl.nodeChildrenF
  exact .bind_strict (.lit (by simp)) fun _ => .bind (.nodesF h hs hs') (Sfx.nodesF total hs)
    fun _ => .refl _ _

protected theorem Agree.slashdashedChildrenF (h : Agree n b b') (hs : Strict b) (hs' : Strict b') :
    Agree (n + 1) (slashdashedChildrenF total b) (slashdashedChildrenF total b') := by
  unfold Kdl.slashdashedChildrenF
  have s1 := (Strict.nodeChildrenF total hs).sfx
  have s1' := (Strict.nodeChildrenF total hs').sfx
  refine .bind (.refl _ _) .nodeSpace0 fun _ => .void (.sep1 (.bind (.refl _ _) ?_ fun _ =>
    .void (.nodeChildrenF h hs hs') s1) ?_ ?_) ?_
  all_goals psolve

protected theorem Agree.beforeNodeChildrenF (h : Agree n b b') (hs : Strict b) (hs' : Strict b') :
    Agree (n + 1) (beforeNodeChildrenF total b) (beforeNodeChildrenF total b') := by
  unfold Kdl.beforeNodeChildrenF
  have s1 := (Strict.slashdashedChildrenF total hs).sfx
  have h1 : Agree (n + 1) (slashdashedChildrenF total b) (slashdashedChildrenF total b') :=
    .slashdashedChildrenF h hs hs'
  refine .bind (.alt (.bind (.refl _ _) ?_ fun _ => .bind (.refl _ _) ?_ fun _ => .bind (.refl _ _) ?_ fun _ =>
    h1) (.alt (.refl _ _) (.alt (.bind (.refl _ _) ?_ fun _ => h1) (.refl _ _)))) ?_ fun _ => .refl _ _
  all_goals psolve

protected theorem Agree.baseNodeF (h : Agree n b b') (hs : Strict b) (hs' : Strict b') :
    Agree (n + 1) (baseNodeF total b) (baseNodeF total b') := by
  unfold Kdl.baseNodeF
  have s1 := (Strict.nodeChildrenF total hs).sfx
  have s2 := Sfx.beforeNodeChildrenF total hs
  have s3 := (Strict.slashdashedChildrenF total hs).sfx
  have h1 : Agree (n + 1) (childrenP total b) (childrenP total b') := by
    unfold childrenP
    refine .opt (.bind (.takeP (.beforeNodeChildrenF h hs hs') s2) ?_ fun _ =>
      .bind (.nodeChildrenF h hs hs') s1 fun _ => .refl _ _)
    psolve
  have h2 : ∀ x, Agree (n + 1) (tailP total b x) (tailP total b' x) := by
    intro x
    unfold tailP tailText
    cases x
    · refine .bind (.takeP (.beforeNodeChildrenF h hs hs') s2) ?_ fun _ => .refl _ _
      psolve
    · refine .bind (.takeP (.opt (.slashdashedChildrenF h hs hs')) ?_) ?_ fun _ => .refl _ _ <;> psolve
  have s4 := Sfx.childrenP total hs
  have s5 := fun x => Sfx.tailP total x hs
  refine .bind (.refl _ _) .notP fun _ => .bind (.refl _ _) .here fun _ =>
    .bind (.refl _ _) (.cutErr .notP) fun _ => .bind (.refl _ _) ?_ fun _ => .bind (.refl _ _) ?_ fun _ =>
    .bind (.refl _ _) ?_ fun _ => ?_
  rotate_left 3
  · split
    · exact .refl _ _
    · refine .bind (.refl _ _) (Sfx.entriesP total) fun _ => .bind h1 s4 fun _ => .bind (h2 _) (s5 _) fun _ => .refl _ _
  all_goals psolve

end

theorem baseNodeN_agree (total : Nat) : ∀ (k m : Nat), k ≤ m →
    Agree k (baseNodeN total k) (baseNodeN total m)
  | 0, _, _ => fun s hs => absurd hs (by omega)
  | k + 1, 0, h => absurd h (by omega)
  | k + 1, m + 1, h =>
    Agree.baseNodeF (baseNodeN_agree total k m (by omega)) (Strict.baseNodeN total k)
      (Strict.baseNodeN total m)

theorem baseNode_unfold (total : Nat) (s : Str) :
    baseNode total s = baseNodeF total (baseNode total) s := by
  show baseNodeF total (baseNodeN total s.length) s = _
  refine Agree.baseNodeF (n := s.length) ?_ (Strict.baseNodeN _ _) (Strict.baseNode _) s (by omega)
  intro q hq
  exact (baseNodeN_agree total (q.length + 1) s.length (by omega) q (by omega)).symm

end
end Kdl
