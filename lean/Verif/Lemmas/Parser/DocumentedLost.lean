import Verif.Lemmas.Parser.Documented
import Verif.Lemmas.Parser.SlashNode
/-
Documented texts with a slashdashed node that ends with a semicolon are not accepted.
-/

namespace Kdl
open Spec

/-! ### Parsers that give up -/

/-- The parser gives up: no alternative to it is tried. -/
def Fails {α : Type} (p : P α) (s : Str) : Prop := p s = .cut ∨ p s = .crash

section
variable {α β : Type} {p : P α} {s : Str}

theorem Fails.not_ok (h : Fails p s) (a : α) (r : Str) : p s ≠ .ok a r := by
  rcases h with h | h <;> rw [h] <;> simp

theorem Fails.not_back (h : Fails p s) : p s ≠ .back := by
  rcases h with h | h <;> rw [h] <;> simp

theorem Fails.of (h1 : ∀ a r, p s ≠ .ok a r) (h2 : p s ≠ .back) : Fails p s := by
  cases h : p s with
  | ok a r => exact absurd h (h1 a r)
  | back => exact absurd h h2
  | cut => exact Or.inl h
  | crash => exact Or.inr h

theorem Fails.bind {f : α → P β} (h : Fails p s) : Fails (p >>= f) s := h.imp bind_cut bind_crash

theorem Fails.after {f : α → P β} {a : α} {r : Str} (h : p s = .ok a r) (hf : Fails (f a) r) : Fails (p >>= f) s := by
  unfold Fails
  rw [bind_eq h]
  exact hf

theorem Fails.left {q : P α} (h : Fails p s) : Fails (p <+> q) s := by
  unfold Fails P.alt
  rcases h with h | h <;> rw [h] <;> simp

theorem Fails.right {q : P α} (h : p s = .back) (hq : Fails q s) : Fails (p <+> q) s := by
  unfold Fails
  rw [alt_right h]
  exact hq

theorem Fails.opt (h : Fails p s) : Fails (opt p) s := by
  unfold Fails Kdl.opt
  rcases h with h | h <;> rw [h] <;> simp

theorem Fails.void (h : Fails p s) : Fails (void p) s := by
  unfold Kdl.void
  exact h.bind

theorem Fails.takeP (h : Fails p s) : Fails (takeP p) s := by
  unfold Kdl.takeP
  exact Fails.after rfl h.bind

theorem Fails.sepMore {sep : P β} {r : Str} {u : β} (hp : Sfx p) (h : sep s = .ok u r) (hl : r.length < s.length) (hf : Fails (sep1 p sep) r) :
    Fails (sepMore p sep) s := by
  refine Fails.of (fun a x e => ?_) (sepFuel_noBack _ _)
  cases sepMore_inv hp e with
  | nil h' => rw [h] at h'; cases h'
  | stop h' _ hb =>
    rw [h] at h'
    injection h' with _ e
    subst e
    exact hf.not_back (sep1_back hb)
  | cons h' _ ha ht =>
    rw [h] at h'
    injection h' with _ e
    subst e
    exact hf.not_ok _ _ (sep1_ok.mpr ⟨_, _, _, ha, sepMore_of hp ht, rfl⟩)

end

section
variable [FloatIO]

/-! ### Blocks -/

theorem children_fails {D : Str} (h : Blocked D) (total : Nat) : Fails (nodeChildrenF total (baseNode total)) ('{' :: D) := by
  unfold nodeChildrenF
  refine Fails.after (lit_one _ _) ?_
  refine Fails.of (fun a x e => ?_) (NoBack.bind (nodesF_noBack _ _) (fun _ => (NoBack.cutErr _).bind fun _ => NoBack.pure _) _)
  rw [bind_ok] at e
  obtain ⟨d, y, h1, e⟩ := e
  rw [bind_ok] at e
  obtain ⟨_, _, h2, _⟩ := e
  exact h total d y h1 (Or.inr ⟨_, lit_ok.mp (cutErr_ok.mp h2)⟩)

theorem sdBlock_fails {b D : Str} (hb : LSpace ['{'] b) (h : Blocked D) (total : Nat) :
    Fails (sdBlock total) ('/' :: '-' :: (b ++ '{' :: D)) := by
  have hs := solid_lit (c := '{') (by simp) D
  unfold sdBlock
  exact Fails.after (slashdash_eq (hb.swap (by simp) hs.notNl) hs.lineSpace) (children_fails h total).void

/-- Slashdashed blocks that the parser does not get through. -/
def FailRun (X : Str) : Prop := Slash X ∧ (∀ total, sdEntry total X = .back) ∧ ∀ total, Fails (sep1 (sdBlock total) nodeSpace1) X

theorem FailRun.one {b D : Str} (hb : LSpace ['{'] b) (h : Blocked D) : FailRun ('/' :: '-' :: (b ++ '{' :: D)) :=
  ⟨⟨_, rfl⟩, brace_sdEntry hb, fun total => (sdBlock_fails hb h total).bind⟩

/-- Slashdashed blocks that the parser does not get through, and the space in front of them. -/
def FailSkip (x : Str) : Prop := ∃ w X, x = w ++ X ∧ w ≠ [] ∧ NSpace X w ∧ FailRun X

theorem FailRun.cons {b D x : Str} {cs : List (SNode Value)} (hb : LSpace ['{'] b) (hD : NodesAt cs ('}' :: x) D) (h : FailSkip x) :
    FailRun ('/' :: '-' :: (b ++ '{' :: (D ++ '}' :: x))) := by
  obtain ⟨w, X, rfl, hne, hw, hX⟩ := h
  refine ⟨⟨_, rfl⟩, brace_sdEntry hb, fun total => ?_⟩
  have hs := (hw.slash hX.1 (r := []))
  rw [List.append_nil] at hs
  obtain ⟨_, _, _, h4⟩ := hs.space1 hne
  exact Fails.after (sdBlock_eq hb hD total) (Fails.sepMore (sdBlock_sfx total) h4 (len_lt hne) (hX.2.2 total)).bind

theorem FailRun.children {X : Str} (h : FailRun X) (total : Nat) : Fails (slashdashedChildrenF total (baseNode total)) X := by
  unfold slashdashedChildrenF
  have h0 : nodeSpace0 X = .ok () X := WSp.nil _ h.1.nodeSpace
  exact Fails.after h0 (h.2.2 total).void

theorem FailSkip.children {x : Str} (h : FailSkip x) (total : Nat) : Fails (slashdashedChildrenF total (baseNode total)) x := by
  obtain ⟨w, X, rfl, hne, hw, hX⟩ := h
  have hs := (hw.slash hX.1 (r := []))
  rw [List.append_nil] at hs
  unfold slashdashedChildrenF
  exact Fails.after (f := fun _ => _) hs (hX.2.2 total).void

/-! ### Nodes -/

/-- Behind the entries of a node stand slashdashed blocks that the parser does not get through. -/
theorem before_fails {Q x : Str} (hQ : Q = [] ∨ ∃ w P, Q = w ++ P ∧ NSpace P w ∧ w ≠ [] ∧ SdEntries P) (h : FailSkip x) :
    NoEntry (Q ++ x) ∧ ∀ total, Fails (beforeNodeChildrenF total (baseNode total)) (Q ++ x) := by
  obtain ⟨u, X, rfl, hne, hu, hX⟩ := h
  have hs : Space0 u X := by
    have := hu.slash hX.1 (r := [])
    rwa [List.append_nil] at this
  obtain ⟨_, _, _, h7⟩ := hs.space1 hne
  rcases hQ with rfl | ⟨w, S, rfl, hw, hne', hS⟩
  · have hb : ∀ total, slashdashedEntries total X = .back := fun total => void_back (sep1_back (hX.2.1 total))
    rw [List.nil_append]
    refine ⟨hs.noEntry hne hX.1.notEq fun total => ⟨u, X, ?_, hX.1.entryBody total⟩, fun total => ?_⟩
    · unfold entryLeadingF
      apply takeP_eq (a := none)
      rw [bind_eq hs]
      exact opt_none (bind_back (hb total))
    · unfold beforeNodeChildrenF
      refine Fails.bind (Fails.right (by rw [bind_eq h7]; exact bind_back (hb total))
        (Fails.right (by rw [bind_eq h7]; exact hb total) (Fails.left (Fails.after h7 (hX.children total)))))
  · have hws := hw.slash hS.slash (r := u ++ X)
    have e : (w ++ S) ++ (u ++ X) = w ++ (S ++ (u ++ X)) := by simp
    rw [e]
    obtain ⟨_, _, _, h6⟩ := hws.space1 hne'
    refine ⟨hws.noEntry hne' (hS.slash.append _).notEq fun total => ⟨_, _, entryLeading_slash hws hS.run hs hne hX.1.notEq total
      (hX.2.1 total), hX.1.entryBody total⟩, fun total => ?_⟩
    unfold beforeNodeChildrenF
    refine Fails.bind (Fails.left (Fails.after h6 (Fails.after (hS.run.take hs hne hX.1.notEq total (hX.2.1 total)) (Fails.after h7 (hX.children total)))))

/-- The type annotation, the name and the entries of a node are read, and then what follows them. -/
theorem baseNode_until {ty : Option Str} {tt nm nt T y : Str} {ds : List (SEntry Value)}
    (h1 : TyTok ty tt) (h2 : StrTok nm nt) (h3 : EntsTok id ds T) (hy : NoEntry y) (total : Nat) (n : Node) (z : Str)
    (h : baseNode total (tt ++ (nt ++ (T ++ y))) = .ok n z) :
    ∃ ch z', childrenP total (baseNode total) y = .ok ch z' ∧ ∃ bt z2, tailText total (baseNode total) ch.isSome z' = .ok bt z2 := by
  obtain ⟨es, e6, _⟩ := h3.entries hy total
  have hY := (h3.follow hy).1
  have hs := h1.starts (h2.starts.append (T ++ y))
  obtain ⟨e1, e2⟩ := hs.notEnd
  obtain ⟨o, q1, af, e3, e4, e5⟩ := h1.parse (h2.starts.append (T ++ y)) (h2.not_paren _) total
  have e8 := identifier_eq (total := total) (h2 _ hY)
  have hne : nt ≠ [] := by
    obtain ⟨c, q, rfl, _⟩ := h2.head
    simp
  rw [baseNode_unfold] at h
  unfold baseNodeF at h
  rw [bind_eq e1, bind_here, bind_eq e2, bind_eq e3, bind_eq e4, bind_eq (cutErr_eq e8)] at h
  simp only [Option.some.injEq, hne, if_false] at h
  rw [bind_eq e6, bind_ok] at h
  obtain ⟨ch, z', h, h'⟩ := h
  refine ⟨ch, z', h, ?_⟩
  rw [bind_ok] at h'
  obtain ⟨_, _, h', _⟩ := h'
  unfold tailP at h'
  rw [bind_ok] at h'
  obtain ⟨bt, z2, h', _⟩ := h'
  exact ⟨bt, z2, h'⟩

theorem baseNode_before {ty : Option Str} {tt nm nt T Q x : Str} {ds : List (SEntry Value)}
    (h1 : TyTok ty tt) (h2 : StrTok nm nt) (h3 : EntsTok id ds T)
    (hQ : Q = [] ∨ ∃ w P, Q = w ++ P ∧ NSpace P w ∧ w ≠ [] ∧ SdEntries P) (hx : FailSkip x) (total : Nat) (n : Node) (z : Str) :
    baseNode total (tt ++ (nt ++ (T ++ (Q ++ x)))) ≠ .ok n z := by
  intro h
  obtain ⟨g1, g2⟩ := before_fails hQ hx
  obtain ⟨ch, z', h4, _⟩ := baseNode_until h1 h2 h3 g1 total n z h
  unfold childrenP at h4
  exact (g2 total).takeP.bind.opt.not_ok _ _ h4

theorem baseNode_tail {ty : Option Str} {tt nm nt T w D x : Str} {ds : List (SEntry Value)} {cs : List (SNode Value)}
    (h1 : TyTok ty tt) (h2 : StrTok nm nt) (h3 : EntsTok id ds T) (h4 : Mid w ('{' :: (D ++ '}' :: x)))
    (hD : NodesAt cs ('}' :: x) D) (hx : FailSkip x) (total : Nat) (n : Node) (z : Str) :
    baseNode total (tt ++ (nt ++ (T ++ (w ++ '{' :: (D ++ '}' :: x))))) ≠ .ok n z := by
  intro h
  obtain ⟨ch, z', h5, bt, z2, h6⟩ := baseNode_until h1 h2 h3 h4.1 total n z h
  obtain ⟨d, h9, _⟩ := hD total
  have h7 : childrenP total (baseNode total) (w ++ '{' :: (D ++ '}' :: x)) = .ok (some (w, d)) x := by
    apply opt_some
    rw [bind_eq (takeP_eq (h4.2 total))]
    unfold nodeChildrenF
    rw [bind_eq (by rw [bind_eq (lit_one _ _), bind_eq h9, bind_eq (cutErr_eq (lit_one _ _))]; rfl)]
    rfl
  rw [h7] at h5
  injection h5 with e1 e2
  subst e1 e2
  unfold tailText at h6
  exact (hx.children total).opt.takeP.not_ok _ _ h6

/-! ### Where the parser gets stuck -/

/-- Behind this nothing is read. The second case is a slashdashed node that is not read. -/
def DeadEnd (X : Str) : Prop :=
  ((Starts X ∨ ∃ q, X = ';' :: q) ∧ BlockedItems X) ∨
    ∃ b z, X = '/' :: '-' :: (b ++ z) ∧ LSpace z b ∧ Starts z ∧ ∀ total m x, baseNode total z ≠ .ok m x

/-- Behind leading items stands something behind which nothing is read. -/
def Dead (s : Str) : Prop := ∃ L X, s = L ++ X ∧ Text .lead X L ∧ DeadEnd X

/-- A slashdashed node that is not at `X`. -/
def nodeUntil (total : Nat) (X : Str) : P Unit := fun s => if s = X then .back else (slashdash >>= fun _ => void (baseNode total)) s

/-- What may stand in front of a node, with `X` taken as the end. -/
def itemsUntil (total : Nat) (X : Str) : P Unit := lineSpace <+> nodeUntil total X

theorem nodeUntil_ne {total : Nat} {X s : Str} (h : s ≠ X) : nodeUntil total X s = (slashdash >>= fun _ => void (baseNode total)) s :=
  if_neg h

theorem nodeUntil_self (total : Nat) (X : Str) : nodeUntil total X X = .back := if_pos rfl

theorem lead_until {X : Str} {b z : Str} (hX : X = '/' :: '-' :: (b ++ z)) (hb : LSpace z b) (hz : Starts z) {c : Cat} {r L : Str}
    (h : Text c r L) : c = .lead → r = X → (∀ q, L ++ X = '/' :: '-' :: q → Next (L ++ X)) ∧ ∀ total, Drain (itemsUntil total X) (L ++ X) X := by
  have hsl : Slash X := ⟨_, hX⟩
  induction h with
  | leadNil =>
    rintro _ rfl
    refine ⟨fun _ _ => Or.inr ⟨b, z, hX, hb, hz⟩, fun total => Drain.stop ?_⟩
    unfold itemsUntil
    rw [List.nil_append, alt_right hsl.lineSpace, nodeUntil_self]
  | @leadSpace r w L hw _ ih =>
    rintro _ rfl
    rw [List.append_assoc]
    refine ⟨fun q e => ?_, fun total => hw.drain ((ih rfl rfl).2 total)⟩
    by_cases hne : w = []
    · subst hne
      exact (ih rfl rfl).1 q e
    · exact absurd e (hw.notSlash hne q)
  | @leadNode k r b' B L d hb' hB hs _ _ ihL =>
    rintro _ rfl
    have ihB := hB.reads
    have ihL := ihL rfl rfl
    have hst := ihB.1.append (L ++ r)
    have hne : B ≠ [] := by
      obtain ⟨c, q, rfl, _⟩ := ihB.1
      simp
    have e : '/' :: '-' :: (b' ++ (B ++ L)) ++ r = '/' :: '-' :: (b' ++ (B ++ (L ++ r))) := by simp
    have hb2 := hb'.swap hne hst.solid.notNl
    rw [e]
    refine ⟨fun q _ => Or.inr ⟨b', _, rfl, hb2, hst⟩, fun total => ?_⟩
    have hf : Follow k (L ++ r) := by
      rcases hs with hs | ⟨hk, hs | ⟨q, hs⟩⟩
      · exact Or.inl (nodeStop_end hs)
      · exact Or.inr ⟨hk, Or.inl hs⟩
      · exact Or.inr ⟨hk, ihL.1 q hs⟩
    obtain ⟨n, hn, _⟩ := ihB.2 hf total
    have h1 := slashdash_eq hb2 hst.solid.lineSpace
    refine Drain.step (a := ()) (q := L ++ r) ?_ ?_ (ihL.2 total)
    · have hsl : Slash ('/' :: '-' :: (b' ++ (B ++ (L ++ r)))) := ⟨_, rfl⟩
      unfold itemsUntil
      rw [alt_right hsl.lineSpace, nodeUntil_ne, bind_eq h1]
      · exact void_eq hn
      · intro e
        have := congrArg List.length e
        simp only [List.length_cons, List.length_append] at this
        omega
    · simp only [List.length_cons, List.length_append]; omega
  | _ => intro e; cases e

/-- What is read up to `X` by the one is read up to `X` by the other. -/
theorem drain_until {total : Nat} {X : Str} (n : Nat) : ∀ {s x : Str}, s.length ≤ n → Drain (itemsUntil total X) s X →
    Drain (lineSpace <+> (do slashdash; void (baseNode total))) s x → Drain (lineSpace <+> (do slashdash; void (baseNode total))) X x := by
  induction n with
  | zero =>
    intro s x hn h h'
    rcases h.cases with ⟨_, rfl⟩ | ⟨a, q, _, hl, _⟩
    · exact h'
    · omega
  | succ n ih =>
    intro s x hn h h'
    rcases h.cases with ⟨_, rfl⟩ | ⟨a, q, h1, hl, h2⟩
    · exact h'
    · have h3 : (lineSpace <+> (do slashdash; void (baseNode total))) s = .ok a q := by
        unfold itemsUntil at h1
        rcases alt_ok.mp h1 with h1 | ⟨hb, h1⟩
        · exact alt_left h1
        · rw [alt_right hb]
          by_cases e : s = X
          · subst e
            rw [nodeUntil_self] at h1
            cases h1
          · rwa [nodeUntil_ne e] at h1
      rcases h'.cases with ⟨h4, _⟩ | ⟨a', q', h4, _, h5⟩
      · rw [h3] at h4; cases h4
      · rw [h3] at h4
        injection h4 with _ e
        subst e
        exact ih (by omega) h2 h5

theorem leadingItems_drain {total : Nat} {s x L : Str} (h : leadingItems (baseNode total) s = .ok L x) :
    Drain (lineSpace <+> (do slashdash; void (baseNode total))) s x := by
  unfold leadingItems takeP at h
  rw [bind_here, bind_ok] at h
  obtain ⟨l, y, h1, h2⟩ := h
  rw [bind_here] at h2
  injection h2 with _ e
  subst e
  exact ⟨l, h1⟩

/-- A node does not begin with a slashdash. -/
theorem baseNode_slash (total : Nat) (x : Str) (m : Node) (z : Str) : baseNode total ('/' :: '-' :: x) ≠ .ok m z := by
  have hs : Slash ('/' :: '-' :: x) := ⟨_, rfl⟩
  have h0 : nodeSpace0 ('/' :: '-' :: x) = .ok () ('/' :: '-' :: x) := WSp.nil _ hs.nodeSpace
  rw [baseNode_unfold]
  unfold baseNodeF
  have e1 : notP (lit ['}'] <+> eof) ('/' :: '-' :: x) = .ok () ('/' :: '-' :: x) := rfl
  have e2 : cutErr (notP (lit ['{'])) ('/' :: '-' :: x) = .ok () ('/' :: '-' :: x) := rfl
  have e3 : opt (tyP total) ('/' :: '-' :: x) = .ok none ('/' :: '-' :: x) :=
    opt_none (tyP_back (by intro q e; exact absurd (List.cons.inj e).1 (by decide)))
  have e4 : identifier total ('/' :: '-' :: x) = .back := identifier_back (stringP_back
    (by rintro _ _ ⟨⟩; decide) (by intro q e; exact absurd (List.cons.inj e).1 (by decide))
    (by intro q e; exact absurd (List.cons.inj e).1 (by decide)))
  rw [bind_eq e1, bind_here, bind_eq e2, bind_eq e3, bind_eq (takeP_nil h0)]
  rw [bind_cut (cutErr_back e4)]
  simp

theorem Dead.lead {s : Str} (h : Dead s) {total : Nat} {L x : Str} (hl : leadingItems (baseNode total) s = .ok L x) :
    ¬ DocEnd x ∧ BlockedItems x := by
  obtain ⟨L', X, rfl, hL, h | ⟨b, z, hX, hb, hz, hn⟩⟩ := h
  · have hs : Solid X := by
      rcases h.1 with h | ⟨q, rfl⟩
      · exact h.solid
      · rintro _ _ ⟨⟩; decide
    rw [leadingItems_of (total := total) hL.reads hs] at hl
    injection hl with _ e
    subst e
    refine ⟨?_, h.2⟩
    rcases h.1 with h | ⟨q, rfl⟩
    · exact not_docEnd h
    · rintro (h | ⟨y, h⟩) <;> simp at h
  · have h1 := (lead_until hX hb hz hL rfl rfl).2 total
    have h2 := drain_until _ (Nat.le_refl _) h1 (leadingItems_drain hl)
    rcases h2.cases with ⟨_, rfl⟩ | ⟨a, q, h3, _⟩
    · subst hX
      exact ⟨by rintro (h | ⟨y, h⟩) <;> simp at h, blockedItems_first fun total m x => baseNode_slash total _ m x⟩
    · have hsl : Slash X := ⟨_, hX⟩
      rw [alt_right hsl.lineSpace, hX, bind_eq (slashdash_eq hb hz.solid.lineSpace)] at h3
      obtain ⟨m, h3⟩ := void_ok.mp h3
      exact absurd h3 (hn _ _ _)

theorem Dead.blocked {s : Str} (h : Dead s) : Blocked s := by
  intro total d x h'
  obtain ⟨lead, s1, ns', s2, o, s3, trail, g1, g2, g3, g4, _⟩ := nodesF_inv h'
  obtain ⟨hd, hb⟩ := h.lead g1
  have g6 : leadingItems (baseNode total) s1 = .ok [] s1 := takeP_nil (rep0_nil (leadingItems_drain g1).last)
  rcases sep0_ok.mp g2 with ⟨k1, rfl, rfl⟩ | ⟨a, q, as, k1, k2, rfl⟩
  · exact absurd (nodeF_back (baseNode_back total) g6 k1) hd
  · exact hb total _ _ g6 _ _ _ _ _ _ _ _ k1 (sepMore_inv (Strict.nodeF (Strict.baseNode total)).sfx k2) g3 g4

theorem Dead.leading {s L : Str} (h : Dead s) (hL : Text .lead s L) : Dead (L ++ s) := by
  obtain ⟨L', X, rfl, h1, h2⟩ := h
  exact ⟨L ++ L', X, by simp, lead_lead hL h1, h2⟩

/-- A node that is read, in front of a text that is not. -/
theorem Dead.node {B m s : Str} (hB : ∀ total, ∃ n, baseNode total (B ++ (m ++ s)) = .ok n (m ++ s)) (hs : Starts B)
    (hm : TermText m s) (h : Dead s) : Dead (B ++ (m ++ s)) := by
  refine ⟨[], B ++ (m ++ s), rfl, .leadNil, Or.inl ⟨Or.inl (hs.append _), ?_⟩⟩
  intro total p L0 hp a q ns q1 u q2 L' x h1 h2 h3 h4
  obtain ⟨l, q', n', h5, h6, _⟩ := nodeF_inv h1
  rw [hp] at h5
  injection h5 with _ e
  subst e
  obtain ⟨n, hn⟩ := hB total
  rw [hn] at h6
  injection h6 with _ e
  subst e
  have h7 := termText_eq hm
  cases h2 with
  | nil h => rw [h7] at h; cases h
  | stop h' _ hp' =>
    rw [opt_some h7] at h3
    injection h3 with _ e
    subst e
    exact (h.lead h4).1
  | cons h' _ hp' ht =>
    rw [h7] at h'
    injection h' with _ e
    subst e
    obtain ⟨l, q', n', h5, _⟩ := nodeF_inv hp'
    exact (h.lead h5).2 total _ _ h5 _ _ _ _ _ _ _ _ hp' ht h3 h4

theorem Dead.ne {s : Str} (h : Dead s) : s ≠ [] := by
  rintro rfl
  obtain ⟨L, X, e, _, h⟩ := h
  obtain ⟨_, rfl⟩ := List.append_eq_nil_iff.mp e.symm
  rcases h with ⟨⟨c, q, h, _⟩ | ⟨q, h⟩, _⟩ | ⟨b, z, h, _⟩ <;> cases h

/-! ### Documented texts -/

theorem dead_space {s l : Str} (h : Dead s) (hl : LSpace s l) : Dead (l ++ s) := by
  have := Text.leadSpace (r := s) (L := []) (by simpa using hl) .leadNil
  exact h.leading (by simpa using this)

/-- A documented node in front of a text that is not read. -/
theorem dead_node {s : Bool} {d : SNode Value} {l B w m Z : Str} (hl : LSpace (B ++ (w ++ (m ++ Z))) l)
    (hB : Means (.base s d) (w ++ (m ++ Z)) B) (hw : NSpace (m ++ Z) w) (hm : DTerm m Z)
    (h : Dead Z ∨ (s = true ∧ m = [';'])) : Dead (l ++ (B ++ (w ++ (m ++ Z)))) := by
  refine dead_space ?_ hl
  obtain ⟨sl, p, B', rfl, hsl, hp, hne, hB⟩ := hB
  have hB := hB _ _ rfl hw
  have hstop := dterm_stop hm
  have hp' : LSpace (B' ++ (w ++ (m ++ Z))) p := (hp.lspace).swapH hne (nlImp_ext hne (w ++ (m ++ Z)))
  cases hsl with
  | no =>
    have h := h.resolve_right (by simp)
    have hm' : TermText m Z := by
      rcases hm with h' | h' | h' | ⟨_, h'⟩
      · exact Or.inr (Or.inr h')
      · exact Or.inr (Or.inl h')
      · exact Or.inl h'
      · exact absurd h' h.ne
    have := Dead.node (B := B' ++ w) (m := m) (s := Z) (fun total => by
      obtain ⟨n, hn, _⟩ := hB.reads.2 (Or.inl (nodeStop_end hstop)) total
      exact ⟨n, hn⟩) (node_starts hB) hm' h
    have := dead_space (l := p) this (by simpa using hp')
    simpa using this
  | @yes b hb =>
    have hbp : LSpace (B' ++ w) (b ++ p) := by
      have h1 : LSpace B' (b ++ p) := LSpace.app hb hp.lspace
      exact h1.swapH hne (nlImp_ext hne w)
    by_cases hs : m = [';']
    · subst hs
      have hnode := Text.leadNode (k := false) (r := ';' :: Z) (L := []) hbp (by simpa using hB) (Or.inl hstop) .leadNil
      refine ⟨_, ';' :: Z, ?_, hnode, Or.inl ⟨Or.inr ⟨_, rfl⟩, blockedItems_first fun total m z h => by
        rw [baseNode_semicolon] at h; cases h⟩⟩
      simp
    · have h := h.resolve_right fun h => hs h.2
      have hnode := Text.leadNode (k := false) hbp hB (Or.inl hstop) (dterm_lead hm hs)
      have := h.leading hnode
      simpa using this

/-- A documented node that is not read. -/
theorem dead_base {s : Bool} {x l sl p z : Str} (hl : LSpace x l) (e : x = sl ++ (p ++ z)) (hsl : DSlash (p ++ z) s sl) (hp : NSpace z p)
    (hz : Starts z) (hn : ∀ total m x, baseNode total z ≠ .ok m x) : Dead (l ++ x) := by
  refine dead_space ?_ hl
  subst e
  cases hsl with
  | no => exact dead_space (l := p) ⟨[], z, rfl, .leadNil, Or.inl ⟨Or.inl hz, blockedItems_first hn⟩⟩ hp.lspace
  | @yes b hb =>
    exact ⟨[], _, rfl, .leadNil, Or.inr ⟨b ++ p, z, by simp, LSpace.app hb hp.lspace, hz, hn⟩⟩

/-- What is shown for each category. -/
def DeadGoal : DCat → Str → Str → Prop
  | .children cs, r, C => Doc false (.children cs) r C ∨ ∃ D, C ++ r = '{' :: D ∧ C ≠ [] ∧ Blocked D
  | .skipped, r, S => (Doc false .skipped r S ∧ (FailSkip r → FailSkip (S ++ r))) ∨ FailSkip (S ++ r)
  | .block cs, r, C => Doc false (.block cs) r C ∨ ∃ w D, C ++ r = w ++ '{' :: D ∧ NSpace ['{'] w ∧ Blocked D
  | .base s d, r, B => Doc false (.base s d) r B ∨ ∃ sl p z, B ++ r = sl ++ (p ++ z) ∧ DSlash (p ++ z) s sl ∧ NSpace z p ∧ Starts z ∧
      ∀ total m x, baseNode total z ≠ .ok m x
  | .final ds, r, F => Doc false (.final ds) r F ∨ Dead (F ++ r)
  | .nodes ds, r, N => (Doc false (.nodes ds) r N ∧ (Dead r → Dead (N ++ r))) ∨ Dead (N ++ r)

theorem doc_dead {c : DCat} {r t : Str} (h : Doc true c r t) : DeadGoal c r t := by
  induction h with
  | @children r N F cs es _ _ ihN ihF =>
    have e : '{' :: (N ++ (F ++ ['}'])) ++ r = '{' :: (N ++ (F ++ '}' :: r)) := by simp
    rcases ihN with ⟨hN, hN'⟩ | hN
    · rcases ihF with hF | hF
      · exact Or.inl (.children hN hF)
      · exact Or.inr ⟨_, e, by simp, (hN' hF).blocked⟩
    · exact Or.inr ⟨_, e, by simp, hN.blocked⟩
  | skipNil => exact Or.inl ⟨.skipNil, id⟩
  | @skip r w b C T cs hw hne hb _ _ ihC ihT =>
    have e : w ++ '/' :: '-' :: (b ++ (C ++ T)) ++ r = w ++ '/' :: '-' :: (b ++ (C ++ (T ++ r))) := by simp
    have hw' : NSpace ('/' :: '-' :: (b ++ (C ++ (T ++ r)))) w := hw.over (by simp) (by decide)
    rcases ihC with hC | ⟨D, hC, hCn, hD⟩
    · obtain ⟨D, rfl, hD⟩ := doc_means hC
      have hb' : LSpace ['{'] b := hb.swap (by simp) (by intro q e; cases e)
      have key (h : FailSkip (T ++ r)) : FailSkip (w ++ '/' :: '-' :: (b ++ ('{' :: (D ++ ['}']) ++ T)) ++ r) := by
        rw [e]
        refine ⟨w, _, rfl, hne, hw', ?_⟩
        have := FailRun.cons (D := D) hb' ((hD (T ++ r)).reads (Or.inr ⟨_, rfl⟩)) h
        simpa using this
      rcases ihT with ⟨hT, hT'⟩ | hT
      · exact Or.inl ⟨.skip hw hne hb hC hT, fun h => key (hT' h)⟩
      · exact Or.inr (key hT)
    · right
      rw [e]
      rw [hC] at hw' ⊢
      exact ⟨w, _, rfl, hne, hw', .one (hb.swap hCn (by intro q e; cases e)) hD⟩
  | noBlock => exact Or.inl .noBlock
  | @block r w C cs hw hne _ ihC =>
    rcases ihC with hC | ⟨D, hC, hCn, hD⟩
    · exact Or.inl (.block hw hne hC)
    · exact Or.inr ⟨w, D, by rw [List.append_assoc, hC], hw.over hCn (by decide), hD⟩
  | @base s r sl tt nt T S C S' w nm ty ds cs hs ht hn hT _ _ _ hw ihS ihC ihS' =>
    have h2 := StrTok.text hn
    obtain ⟨T1, Q, hTe, hT1, hQ⟩ := dentries_split hT
    obtain ⟨p, u, htt, hp, hu⟩ : ∃ p u, tt = p ++ u ∧ NSpace (u ++ nt) p ∧ TyText nt ty u := by
      cases ht with
      | none hw => exact ⟨tt, [], by simp, hw, .none⟩
      | some hi hb ha hw => exact ⟨[], _, rfl, .nil, .some hi hb ha hw⟩
    have h1 := TyTok.text hu hn.ne
    have h3 := EntsTok.text hT1
    have hnt : u ++ nt ≠ [] := fun e => hn.ne (List.append_eq_nil_iff.mp e).2
    have key (y : Str) (hy : S ++ (C ++ (S' ++ (w ++ r))) = y)
        (h : ∀ total m x, baseNode total (u ++ (nt ++ (T1 ++ (Q ++ y)))) ≠ .ok m x) :
        DeadGoal (.base s (.mk ty nm ds cs)) r (sl ++ (tt ++ (nt ++ (T ++ (S ++ (C ++ (S' ++ w))))))) := by
      subst hy
      refine Or.inr ⟨sl, p, _, ?_, ?_, ?_, ?_, h⟩
      · simp [htt, hTe]
      · cases hs with
        | no => exact .no
        | yes hb =>
          refine .yes ?_
          have hne : tt ++ nt ≠ [] := fun e => hn.ne (List.append_eq_nil_iff.mp e).2
          have := hb.swapH hne (nlImp_ext hne (T1 ++ (Q ++ (S ++ (C ++ (S' ++ (w ++ r)))))))
          simpa [htt] using this
      · have := hp.swapH hnt (nlImp_ext hnt (T1 ++ (Q ++ (S ++ (C ++ (S' ++ (w ++ r)))))))
        simpa using this
      · exact h1.starts (h2.starts.append _)
    rcases ihS with ⟨hS, hS'⟩ | hS
    · rcases ihC with hC | ⟨wb, D, hC, hwb, hD⟩
      · rcases ihS' with ⟨hT', _⟩ | hT'
        · exact Or.inl (.base hs ht hn hT hS hC hT' hw)
        · rcases doc_means hC with ⟨rfl, rfl⟩ | ⟨cs', wb, D, rfl, rfl, hwb, hD⟩
          · refine key _ rfl (baseNode_before h1 h2 h3 hQ ?_)
            simpa using hS' (by simpa using hT')
          · refine key (S ++ (wb ++ '{' :: (D ++ '}' :: (S' ++ (w ++ r))))) (by simp) fun total m x => ?_
            have h4 : Text (.mid false) ('{' :: (D ++ '}' :: (S' ++ (w ++ r)))) (Q ++ (S ++ wb)) :=
              mid_parts hQ (doc_means hS) (hwb.over (by simp) (by decide))
            have := baseNode_tail h1 h2 h3 (h4.reads (Or.inl (Or.inr (Or.inl ⟨_, rfl⟩)))) ((hD _).reads (Or.inr ⟨_, rfl⟩)) hT' total m x
            simpa using this
      · refine key (S ++ (wb ++ '{' :: D)) (by rw [hC]) fun total m x => ?_
        have h4 : Text (.mid false) ('{' :: D) (Q ++ (S ++ wb)) :=
          mid_parts hQ (doc_means hS) (hwb.over (by simp) (by decide))
        have := baseNode_blocked h1 h2 h3 (h4.reads (Or.inl (Or.inr (Or.inl ⟨_, rfl⟩)))) hD total m x
        simpa using this
    · exact key _ rfl (baseNode_before h1 h2 h3 hQ hS)
  | noFinal => exact Or.inl .noFinal
  | @final s r B w m d _ hw hm hs ihB =>
    rcases ihB with hB | ⟨sl, p, z, e, hsl, hp, hz, hn⟩
    · by_cases h : s = true ∧ m = [';']
      · obtain ⟨rfl, rfl⟩ := h
        have := dead_node (l := []) .nil (doc_means hB) hw (Or.inr (Or.inr (Or.inl rfl))) (Or.inr ⟨rfl, rfl⟩)
        exact Or.inr (by simpa using this)
      · exact Or.inl (.final hB hw hm fun h1 _ h2 => h ⟨h1, h2⟩)
    · have := dead_base (l := []) .nil e hsl hp hz hn
      exact Or.inr (by simpa using this)
  | noNode hl => exact Or.inl ⟨.noNode hl, fun h => dead_space h hl⟩
  | @node s r l B w m T d ds hl _ hw hm hs _ ihB ihT =>
    have e1 : l ++ (B ++ (w ++ (m ++ T))) ++ r = l ++ (B ++ (w ++ (m ++ (T ++ r)))) := by simp
    rcases ihB with hB | ⟨sl, p, z, e, hsl, hp, hz, hn⟩
    · have key (h : Dead (T ++ r) ∨ (s = true ∧ m = [';'])) : Dead (l ++ (B ++ (w ++ (m ++ T))) ++ r) := by
        rw [e1]
        exact dead_node hl (doc_means hB) hw hm h
      by_cases h : s = true ∧ m = [';']
      · exact Or.inr (key (Or.inr h))
      · rcases ihT with ⟨hT, hT'⟩ | hT
        · exact Or.inl ⟨.node hl hB hw hm (fun h1 _ h2 => h ⟨h1, h2⟩) hT, fun h => key (Or.inl (hT' h))⟩
        · exact Or.inr (key (Or.inl hT))
    · right
      rw [e1]
      exact dead_base hl e hsl hp hz hn

theorem Dead.not_bom {s : Str} (h : Dead s) (q : Str) : s ≠ Char.ofNat 0xFEFF :: q := by
  obtain ⟨L, X, rfl, hL, hX⟩ := h
  intro e
  have hF : Solid (Char.ofNat 0xFEFF :: q) := by
    rintro _ _ ⟨⟩
    decide
  cases L with
  | nil =>
    subst e
    rcases hX with ⟨⟨c, y, h, hst⟩ | ⟨y, h⟩, _⟩ | ⟨b, z, h, _⟩
    · obtain ⟨rfl, _⟩ := List.cons.inj h
      rcases hst with h | h | h | h <;> exact absurd h (by decide)
    · exact absurd (List.cons.inj h).1 (by decide)
    · exact absurd (List.cons.inj h).1 (by decide)
  | cons c L =>
    have hd : Drain (lineSpace <+> (do slashdash; void (baseNode 0))) (c :: L ++ X) (c :: L ++ X) := by
      rw [e]
      exact Drain.stop (hF.leadStop 0)
    rcases hX with ⟨h, _⟩ | ⟨b, z, hX, hb, hz, hn⟩
    · have hs : Solid X := by
        rcases h with h | ⟨q, rfl⟩
        · exact h.solid
        · rintro _ _ ⟨⟩; decide
      obtain ⟨l, h1⟩ := (hL.reads hs).2 0
      obtain ⟨l', h2⟩ := hd
      rw [h1] at h2
      injection h2 with _ e
      have := congrArg List.length e
      simp at this
      omega
    · have h1 := (lead_until hX hb hz hL rfl rfl).2 0
      have h2 := drain_until _ (Nat.le_refl _) h1 hd
      rcases h2.cases with ⟨_, e⟩ | ⟨a, q, h3, _⟩
      · have := congrArg List.length e
        simp at this
        omega
      · have hsl : Slash X := ⟨_, hX⟩
        rw [alt_right hsl.lineSpace, hX, bind_eq (slashdash_eq hb hz.solid.lineSpace)] at h3
        obtain ⟨m, h3⟩ := void_ok.mp h3
        exact absurd h3 (hn _ _ _)

/-- A documented text is documented without such nodes, or not accepted. -/
theorem documented_dead {ds : List (SNode Value)} {s : Str} (h : Documented true ds s) :
    Documented false ds s ∨ ∀ d, Document.parse s ≠ .ok d := by
  obtain ⟨t, ht, hd⟩ := h
  rcases doc_dead hd with ⟨h1, _⟩ | h1
  · exact Or.inl ⟨t, ht, h1⟩
  · right
    rw [List.append_nil] at h1
    intro d h
    obtain ⟨_, ⟨s1, d', e1, h6, _⟩ | ⟨h6, h7⟩⟩ := documentP_inv (tryParse_ok.mp h)
    · rcases ht with rfl | rfl
      · exact h1.not_bom _ e1
      · obtain ⟨_, e1⟩ := List.cons.inj e1
        rw [← e1] at h6
        exact h1.blocked _ _ _ h6 (Or.inl rfl)
    · rcases ht with rfl | rfl
      · exact h1.blocked _ _ _ h7 (Or.inl rfl)
      · exact h6 _ rfl

end

end Kdl
