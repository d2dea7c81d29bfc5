import Verif.Lemmas.DiagFront
import Verif.Lemmas.Parser.Concat
/-
Accepted text in front of any text: blank lines, comments, slashdashed nodes and nodes are read one after the
other, whatever follows.
-/

namespace Kdl
open Spec

variable {α β : Type}

/-! ### White space in front of anything -/

theorem L.bind_def (p : L α) (f : α → L β) (s : Str) : (p >>= f) s =
    match p s with
    | .ok a r => f a r
    | .back e r => .back e r
    | .cut e r => .cut e r
    | .crash => .crash := rfl

theorem L.repFuel_fuel {p : L α} : ∀ (n m : Nat) (s : Str), s.length < n → s.length < m → L.repFuel p n s = L.repFuel p m s := by
  intro n
  induction n with
  | zero => intro m s h; omega
  | succ n ih =>
    intro m s hn hm
    obtain ⟨m, rfl⟩ : ∃ k, m = k + 1 := ⟨m - 1, by omega⟩
    unfold L.repFuel
    cases p s with
    | ok a r =>
      by_cases hr : r.length < s.length
      · simp only [hr, if_true]
        rw [ih m r (by omega) (by omega)]
      · simp only [hr, if_false]
    | _ => rfl

theorem L.rep0_def (p : L α) (s : Str) : L.rep0 p s =
    match p s with
    | .ok a r =>
      if r.length < s.length then
        match L.rep0 p r with
        | .ok as r' => .ok (a :: as) r'
        | .back e r' => .back e r'
        | .cut e r' => .cut e r'
        | .crash => .crash
      else .crash
    | .back _ _ => .ok [] s
    | .cut e r => .cut e r
    | .crash => .crash := by
  unfold L.rep0
  rw [L.repFuel]
  cases p s with
  | ok a r =>
    by_cases hr : r.length < s.length
    · simp only [hr, if_true]
      rw [L.repFuel_fuel s.length (r.length + 1) r hr (by omega)]
      cases L.repFuel p (r.length + 1) r <;> rfl
    · simp only [hr, if_false]
  | _ => rfl

theorem LTr.ok {p : L α} {q : P α} (h : LTr p q) {s r : Str} {a : α} (hq : q s = .ok a r) : p s = .ok a r := by
  have h1 := (h s).1
  rw [hq] at h1
  cases hp : p s <;> rw [hp] at h1 <;> cases h1
  rfl

theorem LTr.backs {p : L α} {q : P α} (h : LTr p q) {s : Str} (hq : q s = .back) : ∃ e r, p s = .back e r := by
  have h1 := (h s).1
  rw [hq] at h1
  cases hp : p s <;> rw [hp] at h1 <;> cases h1
  exact ⟨_, _, rfl⟩

theorem LTr.of_ok {p : L α} {q : P α} (h : LTr p q) {s r : Str} {a : α} (hp : p s = .ok a r) : q s = .ok a r := by
  rw [← (h s).1, hp]; rfl

theorem ws_shorter {s t : Str} {u : Unit} (h : ws s = .ok u t) : t.length < s.length := by
  rcases ws_iff.mp h with ⟨c, _, rfl⟩ | ⟨a, rfl, _⟩
  · simp
  · simp only [List.length_cons, List.length_append]; omega

theorem wssL_cons {s t : Str} (h : wsL s = .ok () t) (ht : t.length < s.length) : wssL s = wssL t := by
  unfold wssL L.void
  rw [L.bind_def, L.bind_def, L.rep0_def, h]
  simp only [ht, if_true]
  cases L.rep0 wsL t <;> rfl

theorem wspL_cons {s t : Str} (h : wsL s = .ok () t) : wspL s = wssL t := by
  unfold wspL wssL L.void L.rep1
  rw [L.bind_def, L.bind_def, L.bind_def, h]
  simp only [L.bind_def]
  cases L.rep0 wsL t <;> rfl

/-- One more white space character in front. -/
theorem nodeSpaceL_cons {s t : Str} (h : wsL s = .ok () t) (ht : t.length < s.length) :
    nodeSpaceL s = nodeSpaceL t ∨ ∃ e r, nodeSpaceL t = .back e r ∧ nodeSpaceL s = .ok () t := by
  have e1 : (do wssL; esclineL; wssL : L Unit) s = (do wssL; esclineL; wssL : L Unit) t := by
    rw [L.bind_def, L.bind_def, wssL_cons h ht]
  unfold nodeSpaceL L.alt
  rw [e1, wspL_cons h]
  cases hx : (do wssL; esclineL; wssL : L Unit) t with
  | back e r =>
    simp only
    rw [L.bind_def] at hx
    cases hw : wsL t with
    | ok u y =>
      have hy : y.length < t.length := ws_shorter (LTr.ws.of_ok hw)
      left
      rw [wspL_cons hw, wssL_cons hw hy]
    | back e' r' =>
      right
      refine ⟨e', r', ?_, ?_⟩
      · unfold wspL L.void L.rep1
        rw [L.bind_def, L.bind_def, hw]
      · unfold wssL L.void
        rw [L.bind_def, L.rep0_def, hw]
        rfl
    | cut e' r' =>
      exfalso
      have : wssL t = .cut e' r' := by
        unfold wssL L.void
        rw [L.bind_def, L.rep0_def, hw]
      rw [this] at hx
      cases hx
    | crash =>
      exfalso
      have : wssL t = .crash := by
        unfold wssL L.void
        rw [L.bind_def, L.rep0_def, hw]
      rw [this] at hx
      cases hx
  | _ => exact Or.inl rfl

/-- A line continuation in front of anything. -/
theorem nodeSpaceL_cont {b m t : Str} (hb : WSeq b) (hm : LineEnd m t) :
    (∃ y, wssL t = .ok () y ∧ nodeSpaceL ('\\' :: (b ++ (m ++ t))) = .ok () y) ∨
    ((∀ u y, wssL t ≠ .ok u y) ∧ nodeSpaceL ('\\' :: (b ++ (m ++ t))) = nodeSpaceL t) := by
  have e0 : wssL ('\\' :: (b ++ (m ++ t))) = .ok () ('\\' :: (b ++ (m ++ t))) :=
    LTr.wss.ok (void_eq (rep0_nil (ws_backslash _)))
  have e1 : L.lit ['\\'] ('\\' :: (b ++ (m ++ t))) = .ok () (b ++ (m ++ t)) := rfl
  have e2 : wssL (b ++ (m ++ t)) = .ok () (m ++ t) := LTr.wss.ok (wss_eq hb hm.ws)
  have e3 : (singleLineCommentL <|+> newlineL <|+> L.eof) (m ++ t) = .ok () t :=
    LTr.ok (.alt .singleLineComment (.alt .newline .eof)) (lineEnd_iff.mpr ⟨m, rfl, hm⟩)
  have e4 : esclineL ('\\' :: (b ++ (m ++ t))) = wssL t := by
    unfold esclineL
    rw [L.bind_def, e1]
    simp only [L.bind_def, e2, e3]
  have e5 : (do wssL; esclineL; wssL : L Unit) ('\\' :: (b ++ (m ++ t))) = (do wssL; wssL : L Unit) t := by
    rw [L.bind_def, e0]
    simp only [L.bind_def, e4]
  unfold nodeSpaceL L.alt
  rw [e5]
  simp only [L.bind_def]
  cases hw : wssL t with
  | ok u y =>
    left
    obtain ⟨w, rfl, _, hy⟩ := wss_inv (LTr.wss.of_ok hw)
    have : wssL y = .ok () y := LTr.wss.ok (void_eq (rep0_nil hy))
    exact ⟨y, rfl, by simp only [this]⟩
  | back e r => exact absurd hw (NoRetryL.void .rep0 _ _ _)
  | cut e r => right; exact ⟨by simp, rfl⟩
  | crash => right; exact ⟨by simp, rfl⟩

/-! ### What may precede a node, in front of anything -/

/-- Reading what precedes a node at `s` is reading it at `t`. -/
def Ahead (base : D Node) (s t : Str) : Prop := ∀ l, (D.rep0 (leadItem base) s l).seen = (D.rep0 (leadItem base) t l).seen

section
variable {base : D Node}

theorem Ahead.refl (s : Str) : Ahead base s s := fun _ => rfl

theorem Ahead.trans {s t u : Str} (h : Ahead base s t) (h' : Ahead base t u) : Ahead base s u := fun l => (h l).trans (h' l)

theorem Ahead.step {s t : Str} (h : ∀ l, leadItem base s l = .ok () t l) (ht : t.length < s.length) : Ahead base s t :=
  fun l => D.rep0_cons (h l) ht

theorem leadItem_line {s t : Str} (h : lineSpaceL s = .ok () t) (l : List Rec) : leadItem base s l = .ok () t l := by
  unfold leadItem D.alt D.lift
  rw [h]

theorem lineSpaceL_node {s t : Str} (h : nodeSpaceL s = .ok () t) : lineSpaceL s = .ok () t := by
  unfold lineSpaceL L.alt
  rw [h]

theorem Ahead.node {s t : Str} (h : nodeSpaceL s = .ok () t) (ht : t.length < s.length) : Ahead base s t :=
  .step (leadItem_line (lineSpaceL_node h)) ht

/-- A fatal error in node space is one of the loop. -/
theorem rep0_stuck {s : Str} (h : (∃ e r, nodeSpaceL s = .cut e r) ∨ nodeSpaceL s = .crash) (l : List Rec) :
    (D.rep0 (leadItem base) s l).seen = (D.lift nodeSpaceL s l).seen := by
  unfold D.rep0
  rw [D.repFuel]
  unfold leadItem D.alt D.lift lineSpaceL L.alt
  rcases h with ⟨e, r, h⟩ | h <;> rw [h] <;> rfl

theorem Ahead.ws {s t : Str} (h : wsL s = .ok () t) : Ahead base s t := by
  have ht := ws_shorter (LTr.ws.of_ok h)
  rcases nodeSpaceL_cons h ht with h1 | ⟨e, r, h1, h2⟩
  · cases hn : nodeSpaceL t with
    | ok u y =>
      have hi := (LTr.nodeSpace t).2
      rw [hn] at hi
      by_cases hy : y.length < t.length
      · exact (Ahead.node (h1.trans hn) (by omega)).trans fun l => (Ahead.node hn hy l).symm
      · have hy' : y = t := by
          obtain ⟨p, hp⟩ := hi
          have := congrArg List.length hp
          simp only [List.length_append] at this
          have : p = [] := List.length_eq_zero_iff.mp (by omega)
          rw [← hp, this]; rfl
        subst hy'
        exact Ahead.node (h1.trans hn) ht
    | back e r =>
      exfalso
      rw [hn] at h1
      have h3 := LTr.nodeSpace s
      rw [h1] at h3
      have h4 := (nodeSpace_back_iff.mp h3.1.symm).1
      rw [LTr.ws.of_ok h] at h4
      cases h4
    | cut e r =>
      intro l
      rw [rep0_stuck (Or.inl ⟨e, r, h1.trans hn⟩), rep0_stuck (Or.inl ⟨e, r, hn⟩)]
      unfold D.lift
      rw [h1, hn]
    | crash =>
      intro l
      rw [rep0_stuck (Or.inr (h1.trans hn)), rep0_stuck (Or.inr hn)]
      unfold D.lift
      rw [h1, hn]
  · exact Ahead.node h2 ht

theorem Ahead.wseq {w t : Str} (h : WSeq w) : Ahead base (w ++ t) t := by
  induction h with
  | nil => exact .refl _
  | space h1 _ ih => exact (Ahead.ws (LTr.ws.ok (ws_iff (u := ()).mpr (Or.inl ⟨_, h1, rfl⟩)))).trans ih
  | @comment a w h1 _ ih =>
    refine (Ahead.ws (LTr.ws.ok (ws_iff (u := ()).mpr (Or.inr ⟨a, ?_, h1⟩)))).trans ih
    simp

theorem Ahead.cont {b m t : Str} (hb : WSeq b) (hm : LineEnd m t) : Ahead base ('\\' :: (b ++ (m ++ t))) t := by
  rcases nodeSpaceL_cont hb hm with ⟨y, h1, h2⟩ | ⟨h1, h2⟩
  · obtain ⟨w, rfl, hw, _⟩ := wss_inv (LTr.wss.of_ok h1)
    refine (Ahead.node h2 ?_).trans fun l => (Ahead.wseq hw l).symm
    simp only [List.length_cons, List.length_append]; omega
  · have hc : (∃ e r, nodeSpaceL t = .cut e r) ∨ nodeSpaceL t = .crash := by
      unfold nodeSpaceL L.alt
      rw [L.bind_def]
      cases hw : wssL t with
      | ok u y => exact absurd hw (h1 _ _)
      | back e r => exact absurd hw (NoRetryL.void .rep0 _ _ _)
      | cut e r => exact Or.inl ⟨e, r, rfl⟩
      | crash => exact Or.inr rfl
    intro l
    rw [rep0_stuck (by rw [h2]; exact hc), rep0_stuck hc]
    unfold D.lift
    rw [h2]

theorem lineSpaceL_eq {s t : Str} (h : lineSpace s = .ok () t) : lineSpaceL s = .ok () t := LTr.lineSpace.ok h

theorem newline_line {m t : Str} (hm : NewlineSeq m t) : lineSpace (m ++ t) = .ok () t ∧ t.length < (m ++ t).length := by
  obtain ⟨c, x, rfl, hc⟩ := hm.head
  have f := newline_facts hc
  refine ⟨?_, by simp; omega⟩
  unfold lineSpace
  rw [alt_right]
  · exact alt_left (newline_seq hm)
  · refine nodeSpace_back_of ?_ ?_ ?_
    · rintro _ _ ⟨⟩
      cases hs : isUnicodeSpace c
      · rfl
      · exact absurd (isUnicodeSpace_iff.mp hs) f.2.2.2.2.2.2.2.2.2.2.2.2
    · intro q e; exact absurd (List.cons.inj e).1 f.1
    · intro q e; exact absurd (List.cons.inj e).1 f.2.1

theorem comment_line {m t : Str} (hm : LineComment m t) : lineSpace (m ++ t) = .ok () t ∧ t.length < (m ++ t).length := by
  have hs : singleLineComment (m ++ t) = .ok () t := singleLineComment_iff.mpr ⟨m, rfl, hm⟩
  obtain ⟨x, rfl⟩ := lineComment_len hm
  have f := slash_facts (c := '/') (by decide) (x ++ t)
  refine ⟨?_, by simp; omega⟩
  unfold lineSpace
  have e : '/' :: '/' :: x ++ t = '/' :: '/' :: (x ++ t) := rfl
  rw [e] at hs ⊢
  rw [alt_right f.1, alt_right f.2]
  exact hs

/-- Line space is read up to anything that follows it. -/
theorem Spec.LSpace.ahead {w r : Str} (h : LSpace r w) : Ahead base (w ++ r) r := by
  induction h with
  | nil => exact .refl _
  | space h1 _ ih => exact (Ahead.ws (LTr.ws.ok (ws_iff (u := ()).mpr (Or.inl ⟨_, h1, rfl⟩)))).trans ih
  | @comment a t h1 _ ih =>
    refine (Ahead.ws (LTr.ws.ok (ws_iff (u := ()).mpr (Or.inr ⟨a, ?_, h1⟩)))).trans ih
    simp
  | cont hb hm _ ih =>
    have := (Ahead.cont (base := base) hb hm).trans ih
    simpa using this
  | newline hm _ ih =>
    rw [List.append_assoc]
    have h := newline_line hm
    exact (Ahead.step (leadItem_line (lineSpaceL_eq h.1)) h.2).trans ih
  | line hm _ ih =>
    rw [List.append_assoc]
    have h := comment_line hm
    exact (Ahead.step (leadItem_line (lineSpaceL_eq h.1)) h.2).trans ih

end

/-! ### Nodes in front of anything -/

section
variable [FloatIO]

/-- Reading nodes at `s` is reading them at `t`, apart from the value and from repeated errors. -/
def Onward (s t : Str) : Prop := ∀ total, (nodesDF total (baseNodeD total) s []).Alike [] (nodesDF total (baseNodeD total) t [])

omit [FloatIO] in
theorem DRes.Alike.refl (x : DRes α) : x.Alike [] x := by cases x <;> simp [DRes.Alike]

omit [FloatIO] in
theorem DRes.Alike.trans {x y z : DRes α} (h : x.Alike [] y) (h' : y.Alike [] z) : x.Alike [] z := by
  cases x <;> cases y <;> first | exact h.elim | skip
  all_goals cases z <;> first | exact h'.elim | skip
  · exact ⟨h.1.trans h'.1, fun x => by rw [h.2 x]; simpa using h'.2 x⟩
  · exact ⟨h.1.trans h'.1, h.2.1.trans h'.2.1, fun x => by rw [h.2.2 x]; simpa using h'.2.2 x⟩
  · exact ⟨h.1.trans h'.1, h.2.1.trans h'.2.1, h.2.2.1.trans h'.2.2.1, fun x => by rw [h.2.2.2 x]; simpa using h'.2.2.2 x⟩
  · trivial

theorem Onward.refl (s : Str) : Onward s s := fun _ => .refl _
theorem Onward.trans {s t u : Str} (h : Onward s t) (h' : Onward t u) : Onward s u := fun total => (h total).trans (h' total)

theorem Onward.ahead {s t : Str} (h : ∀ total, Ahead (baseNodeD total) s t) : Onward s t := by
  intro total
  rw [← DRes.alike_seen]
  have : (nodesDF total (baseNodeD total) s []).seen = (nodesDF total (baseNodeD total) t []).seen := by
    rw [nodesDF_seen, nodesDF_seen]
    refine D.bind_seen ?_ fun _ _ _ _ => rfl
    have := h total []
    rw [leadingItemsD_eq]
    simp only [D.takeP, D.bind_def, D.here]
    cases h1 : D.rep0 (leadItem (baseNodeD total)) s [] <;> cases h2 : D.rep0 (leadItem (baseNodeD total)) t [] <;>
      rw [h1, h2] at this <;> cases this <;> rfl
  rw [this]
  exact .refl _

theorem baseNodeD_run {total : Nat} {s r : Str} {n : Node} (h : baseNode total s = .ok n r) (l : List Rec) :
    baseNodeD total s l = .ok n r l :=
  DTr.run (.baseNodeD total id) (.baseNodeR _ total) h l

/-- Leading text in front of a node. -/
theorem Onward.lead {L T : Str} (hL : Text .lead T L) (hT : Starts T) : Onward (L ++ T) T := by
  intro total
  rw [← DRes.alike_seen, nodesDF_seen, nodesDF_seen, D.bind_run (leadingItemsD_run total (leadingItems_of hL.reads hT.solid) []),
    D.bind_run (noLeading_run hT.solid [])]
  exact .refl _

/-- A slashdashed node. -/
theorem slashNode_ahead {k : Bool} {d : SNode Value} {b B r : Str} (hb : LSpace B b) (hB : Text (.node k d) r B) (hf : Follow k r)
    (total : Nat) : Ahead (baseNodeD total) ('/' :: '-' :: (b ++ (B ++ r))) r := by
  have hst := (node_starts hB).append r
  have hb' := hb.swap (starts_ne (node_starts hB)) hst.solid.notNl
  obtain ⟨n, hn, _⟩ := hB.reads.2 hf total
  have h1 := slashdash_eq hb' hst.solid.lineSpace
  refine .step (fun l => ?_) ?_
  · have hsl : Slash ('/' :: '-' :: (b ++ (B ++ r))) := ⟨_, rfl⟩
    obtain ⟨e, q, h2⟩ := D.lift_run_back LTr.lineSpace hsl.lineSpace l
    unfold leadItem D.alt
    rw [h2]
    simp only
    rw [D.bind_run (D.lift_run LTr.slashdash h1 l)]
    exact D.void_run (baseNodeD_run hn l)
  · simp only [List.length_cons, List.length_append]; omega

omit [FloatIO] in
theorem next_ext {x : Str} (y : Str) (h : Next x) : Next (x ++ y) := by
  rcases h with h | ⟨b, q, rfl, hb, hq⟩
  · exact Or.inl (h.append y)
  · refine Or.inr ⟨b, q ++ y, by simp, ?_, hq.append y⟩
    exact hb.swapH (starts_ne hq) (nlImp_ext (starts_ne hq) y)

/-- Leading text and an empty line, in front of anything. -/
theorem lead_ahead {c : Cat} {r L : Str} (h : Text c r L) : c = .lead → r = [] → ∀ total Z,
    Ahead (baseNodeD total) (L ++ ('\n' :: '\n' :: Z)) Z := by
  have nl : ∀ total Z, Ahead (baseNodeD total) ('\n' :: Z) Z := fun total Z => (lspace_lf (Z := Z) .nil).ahead
  induction h with
  | leadNil => intro _ _ total Z; exact (nl total _).trans (nl total _)
  | @leadSpace r w L hw _ ih =>
    rintro _ rfl total Z
    rw [List.append_nil] at hw
    by_cases hL : L = []
    · subst hL
      have := (lspace_nn hw Z).ahead (base := baseNodeD total)
      simpa using this
    · have := (hw.swapH hL (nlImp_ext hL ('\n' :: '\n' :: Z))).ahead (base := baseNodeD total)
      rw [List.append_assoc]
      exact this.trans (ih rfl rfl total Z)
  | @leadNode k r b B L d hb hB hs hL _ ih =>
    rintro _ rfl total Z
    rw [List.append_nil] at hB hs
    have hne : B ≠ [] := starts_ne (node_starts hB)
    have stop : ∀ q, Follow k ('\n' :: q) := fun q =>
      Or.inl (nodeStop_end (Or.inr ⟨_, _, rfl, Or.inr (Or.inr (Or.inl (by decide)))⟩))
    by_cases hL' : L = []
    · subst hL'
      rcases node_nn hB with h | h
      · have := (slashNode_ahead hb (h ('\n' :: Z)) (stop _) total).trans ((nl total _).trans (nl total _))
        simpa using this
      · have := (slashNode_ahead (hb.swapH hne (nlImp_ext hne ['\n'])) (h Z) (stop _) total).trans (nl total _)
        simpa using this
    · have hf : Follow k (L ++ ('\n' :: '\n' :: Z)) := by
        rcases hs with hs | ⟨hk, hs | ⟨q, hs⟩⟩
        · exact Or.inl (nodeStop_end (nodeStop_ext hL' _ hs))
        · exact Or.inr ⟨hk, Or.inl (Starts.append (s := L) hs _)⟩
        · exact Or.inr ⟨hk, next_ext _ (by simpa using (hL.reads Solid.nil).1 q (by simpa using hs))⟩
      have := (slashNode_ahead hb (hB.extend hL' ('\n' :: '\n' :: Z)) hf total).trans (ih rfl rfl total Z)
      simpa using this
  | _ => intro e; cases e

/-- A node and its end. -/
theorem Onward.node {k : Bool} {d : SNode Value} {B m X : Str} (hB : Text (.node k d) (m ++ X) B) (hm : TermText m X) :
    Onward (B ++ (m ++ X)) X := by
  intro total
  obtain ⟨n, hn, _⟩ := hB.reads.2 (Or.inl (Or.inr (Or.inr ⟨_, _, termText_eq hm⟩))) total
  have hs := ((node_starts hB).append (m ++ X)).solid
  refine nodesDF_node (DTr.baseNodeD total id) (AtEnd.baseNode total) total (noLeading_run hs [])
    (baseNodeD_run hn []) (fun l => D.lift_run LTr.nodeTerminator (termText_eq hm) l) (len_lt (termText_len hm))

theorem lf_onward (Z : Str) : Onward ('\n' :: Z) Z := .ahead fun _ => (lspace_lf (Z := Z) .nil).ahead

/-- Nodes and an empty line, in front of anything. -/
theorem items_onward {c : Cat} {r T : Str} (h : Text c r T) : ∀ {ds : List (SNode Value)}, c = .items ds → r = [] →
    (∀ Z, Onward (T ++ ('\n' :: '\n' :: Z)) Z) ∨ SlashItems ds T := by
  induction h with
  | @last k r B d hB _ =>
    rintro ds ⟨⟩ rfl
    refine Or.inl fun Z => ?_
    rcases node_nn hB with h | h
    · exact (Onward.node (m := ['\n']) (h _) (Or.inr (Or.inl (newlineSeq_lf _)))).trans (lf_onward Z)
    · have := Onward.node (m := ['\n']) (h Z) (Or.inr (Or.inl (newlineSeq_lf _)))
      simpa using this
  | @lastTerm k r B m L d hB hm hL _ _ =>
    rintro ds ⟨⟩ rfl
    refine Or.inl fun Z => ?_
    rw [List.append_nil] at hB hm
    have hne := termText_ne hm
    by_cases hL' : L = []
    · subst hL'
      rw [List.append_nil] at hB
      rcases termText_nn hm with h | h
      · have := (Onward.node (m := m) (X := '\n' :: '\n' :: Z) (hB.extend hne _) (h _)).trans ((lf_onward _).trans (lf_onward Z))
        simpa using this
      · have := (Onward.node (m := m ++ ['\n']) (X := '\n' :: Z) (by simpa using hB.extend hne ('\n' :: '\n' :: Z)) (h _)).trans
          (lf_onward Z)
        simpa using this
    · have := (Onward.node (m := m) (X := L ++ ('\n' :: '\n' :: Z))
        (by simpa using hB.extend (by simp [hne]) ('\n' :: '\n' :: Z)) (termText_ext hL' _ hm)).trans
        (.ahead fun total => lead_ahead hL rfl rfl total Z)
      simpa using this
  | @lastSlash r q B d hB hL _ _ =>
    rintro ds ⟨⟩ rfl
    exact Or.inr (.last (by simpa using hB) hL)
  | @cons k r B m L T d ds hB hm hL hT _ _ ih =>
    rintro ds ⟨⟩ rfl
    have hT' : Starts T := hT.reads.1
    have hne : T ≠ [] := starts_ne hT'
    rw [List.append_nil] at hB hm hL
    refine (ih rfl rfl).imp (fun ih Z => ?_) fun h => .cons hB hm hL h
    have h1 := Onward.node (m := m) (X := L ++ (T ++ ('\n' :: '\n' :: Z))) (by simpa using hB.extend (by simp [hne]) ('\n' :: '\n' :: Z))
      (by simpa using termText_ext (by simp [hne]) ('\n' :: '\n' :: Z) hm)
    have h2 : Onward (L ++ (T ++ ('\n' :: '\n' :: Z))) (T ++ ('\n' :: '\n' :: Z)) :=
      .lead (hL.extend hne _) (hT'.append _)
    have := (h1.trans h2).trans (ih Z)
    simpa using this
  | _ => intro ds e; cases e

end

end Kdl
