import Verif.Lemmas.Parser.Parts
/-
For every part of a parsed document, formatting texts included, a run of the
parser that produced it.
-/

namespace Kdl
open Spec

section
variable [FloatIO]

/-- `p` yields `a` somewhere in `whole`. -/
def Run {α : Type} (whole : Str) (p : P α) (a : α) : Prop := ∃ s r, Sub whole s ∧ p s = .ok a r

mutual
/-- The parts of the node come from runs of the parsers. -/
inductive NodeRun (total : Nat) (whole : Str) : Node → Prop
  | mk {ty : Option Ident} {name : Ident} {es : List Entry} {ch : Option Document} {f : NodeFmt} {span : Span}
      (h1 : ∀ t, ty = some t → Run whole (identifier total) t)
      (h2 : Run whole (identifier total) name)
      (h3 : ∀ e ∈ es, Run whole (nodeEntry total) e)
      (h4 : Run whole (leadingItems (baseNode total)) f.leading ∨ f.leading = [])
      (h5 : Run whole (takeP (beforeNodeChildrenF total (baseNode total))) f.beforeChildren ∨ f.beforeChildren = [])
      (h6 : Run whole (tailP total (baseNode total) ch.isSome) (f.beforeTerminator, f.terminator))
      (h7 : f.trailing = [])
      (h8 : ∀ d, ch = some d → DocRun total whole d) :
      NodeRun total whole (.mk ty name es ch (some f) span)
/-- The parts of the document come from runs of the parsers. -/
inductive DocRun (total : Nat) (whole : Str) : Document → Prop
  | mk {ns : List Node} {f : DocFmt} {span : Span} (h : ∀ n ∈ ns, NodeRun total whole n)
      (lead : Run whole (leadingItems (baseNode total)) f.leading ∨ f.leading = [])
      (trail : Run whole (leadingItems (baseNode total)) f.trailing) :
      DocRun total whole (.mk ns (some f) span)
end

variable {total : Nat} {whole : Str}

theorem NodeRun.setLeading {n : Node} (h : NodeRun total whole n) {l : Str}
    (hl : Run whole (leadingItems (baseNode total)) l) :
    NodeRun total whole (n.setFormat (n.format.map fun f => { f with leading := l })) := by
  cases h with
  | mk h1 h2 h3 h4 h5 h6 h7 h8 => exact .mk h1 h2 h3 (Or.inl hl) h5 h6 h7 h8

theorem NodeRun.format {n : Node} (h : NodeRun total whole n) : ∃ f, n.format = some f := by
  cases h with
  | mk => exact ⟨_, rfl⟩

theorem giveLeading_run {l : Str} {ns : List Node} (hl : Run whole (leadingItems (baseNode total)) l)
    (h : ∀ n ∈ ns, NodeRun total whole n) :
    (∀ n ∈ (giveLeading l ns).2, NodeRun total whole n) ∧
    (Run whole (leadingItems (baseNode total)) (giveLeading l ns).1 ∨ (giveLeading l ns).1 = []) := by
  cases ns with
  | nil => exact ⟨h, Or.inl hl⟩
  | cons n ns =>
    obtain ⟨f, hf⟩ := (h n (by simp)).format
    have e : giveLeading l (n :: ns) = ([], n.setFormat (some { f with leading := l }) :: ns) := by
      simp only [giveLeading, hf]
    rw [e]
    refine ⟨?_, Or.inr rfl⟩
    intro m hm
    rcases List.mem_cons.mp hm with rfl | hm
    · have := (h n (by simp)).setLeading hl
      rw [hf] at this
      exact this
    · exact h m (by simp [hm])

/-- `base` yields nodes that come from runs, on inputs of length below `k`. -/
def RunsBelow (total : Nat) (whole : Str) (k : Nat) : Prop :=
  ∀ {s r n}, s.length < k → Sub whole s → baseNode total s = .ok n r → NodeRun total whole n

theorem Sub.length {s r : Str} (h : Sub s r) : r.length ≤ s.length := by
  obtain ⟨p, rfl⟩ := h
  simp

theorem RunsBelow.nodeF {k : Nat} (hb : RunsBelow total whole k) {s r : Str} {n : Node} (hk : s.length < k)
    (hs : Sub whole s) (h : nodeF (baseNode total) s = .ok n r) : NodeRun total whole n := by
  unfold Kdl.nodeF at h
  obtain ⟨l, q, h1, h⟩ := bind_ok.mp h
  obtain ⟨n', q', h2, h⟩ := bind_ok.mp h
  obtain ⟨hn, rfl⟩ := pure_ok.mp h
  subst hn
  have hq : Sub s q := (Sub.refl s).step (Sfx.leadingItems (Strict.baseNode total).sfx) h1
  exact (hb (Nat.lt_of_le_of_lt hq.length hk) (hs.trans hq) h2).setLeading ⟨_, _, hs, h1⟩

theorem RunsBelow.nodesF {k : Nat} (hb : RunsBelow total whole k) {s r : Str} {d : Document} (hk : s.length < k)
    (hs : Sub whole s) (h : nodesF total (baseNode total) s = .ok d r) : DocRun total whole d := by
  obtain ⟨lead, s1, ns, s2, o, s3, trail, h1, h2, h3, h4, rfl⟩ := nodesF_inv h
  have hst := Strict.baseNode total
  have hs1 : Sub s s1 := (Sub.refl s).step (Sfx.leadingItems hst.sfx) h1
  have hsn : Sfx (Kdl.nodeF (baseNode total)) := (Strict.nodeF hst).sfx
  have hs2 : Sub s1 s2 := (Sub.refl s1).step (Sfx.sep0 hsn Strict.nodeTerminator.sfx) h2
  have hs3 : Sub s2 s3 := (Sub.refl s2).step Strict.nodeTerminator.sfx.opt h3
  have hmore : ∀ {s r : Str} {ns : List Node}, SepMore (Kdl.nodeF (baseNode total)) nodeTerminator s ns r →
      s.length < k → Sub whole s → ∀ n ∈ ns, NodeRun total whole n := by
    intro s r ns h
    induction h with
    | nil _ => rintro _ _ n ⟨⟩
    | stop _ _ _ => rintro _ _ n ⟨⟩
    | cons h hl hp ht ih =>
      intro hk hs n hn
      have hq := hs.step Strict.nodeTerminator.sfx h
      have hk' := Nat.lt_trans hl hk
      rcases List.mem_cons.mp hn with rfl | hn
      · exact hb.nodeF hk' hq hp
      · have hr : Sub _ _ := (Sub.refl _).step hsn hp
        exact ih (Nat.lt_of_le_of_lt hr.length hk') (hq.trans hr) n hn
  have hns : ∀ n ∈ ns, NodeRun total whole n := by
    rcases sep0_ok.mp h2 with ⟨_, rfl, _⟩ | ⟨a, q, as, h5, h6, rfl⟩
    · rintro n ⟨⟩
    · have hk1 := Nat.lt_of_le_of_lt hs1.length hk
      intro n hn
      rcases List.mem_cons.mp hn with rfl | hn
      · exact hb.nodeF hk1 (hs.trans hs1) h5
      · have hr : Sub s1 q := (Sub.refl _).step hsn h5
        exact hmore (sepMore_inv hsn h6) (Nat.lt_of_le_of_lt hr.length hk1) ((hs.trans hs1).trans hr) n hn
  have := giveLeading_run ⟨_, _, hs, h1⟩ hns
  exact .mk this.1 this.2 ⟨_, _, ((hs.trans hs1).trans hs2).trans hs3, h4⟩

theorem RunsBelow.baseNode {k : Nat} : RunsBelow total whole k := by
  induction k with
  | zero => intro s r n hk; omega
  | succ k ih =>
    intro s r n hk hs h
    rw [baseNode_unfold] at h
    obtain ⟨ty, s1, afterTy, s2, name, s3, es, s4, ch, s5, bt, t, s6, _, _, _, h1, h2, h3, h4, h5, h6, h7, rfl⟩ :=
      baseNodeF_inv h
    have hst := Strict.baseNode total
    have a1 : Sub s s1 := (Sub.refl s).step (Strict.tyP total).sfx.opt h1
    have a2 : Sub s s2 := a1.step Sfx.nodeSpace0.takeP h2
    have a3 : Sub s s3 := a2.step (Strict.identifier total).sfx h3
    have a4 : Sub s s4 := a3.step (Sfx.entriesP total) h4
    have a5 : Sub s s5 := a4.step (Sfx.childrenP total hst) h5
    have hch : (Run whole (takeP (beforeNodeChildrenF total (Kdl.baseNode total))) ((ch.map (·.1)).getD []) ∨
        (ch.map (·.1)).getD [] = []) ∧ ∀ d, ch.map (·.2) = some d → DocRun total whole d := by
      unfold childrenP at h5
      rcases opt_ok.mp h5 with ⟨⟨b, d⟩, rfl, h5'⟩ | ⟨rfl, _, _⟩
      · obtain ⟨b', q, h8, h5'⟩ := bind_ok.mp h5'
        obtain ⟨d', q', h9, h5'⟩ := bind_ok.mp h5'
        obtain ⟨e, _⟩ := pure_ok.mp h5'
        simp only [Prod.mk.injEq] at e
        obtain ⟨rfl, rfl⟩ := e
        obtain ⟨q2, rfl, h10⟩ := nodeChildrenF_inv h9
        have hq : Sub s ('{' :: q2) := a4.step (Sfx.beforeNodeChildrenF total hst).takeP h8
        refine ⟨Or.inl ⟨s4, _, hs.trans a4, h8⟩, ?_⟩
        rintro d ⟨⟩
        have hl := hq.length
        simp only [List.length_cons] at hl
        exact ih.nodesF (by omega) (hs.trans hq).tail h10
      · exact ⟨Or.inr rfl, by rintro d ⟨⟩⟩
    have hes : ∀ {s r : Str} {es : List Entry}, Rep (do peek nodeSpace1; nodeEntry total) s es r → Sub whole s →
        ∀ e ∈ es, Run whole (nodeEntry total) e := by
      intro s r es h
      induction h with
      | nil _ => rintro _ e ⟨⟩
      | @cons s1 r1 r2 a as h1 _ _ ih =>
        intro hs e he
        obtain ⟨_, q, h2, h3⟩ := bind_ok.mp h1
        obtain ⟨rfl, _⟩ := peek_ok.mp h2
        rcases List.mem_cons.mp he with rfl | he
        · exact ⟨_, _, hs, h3⟩
        · exact ih (hs.step (Strict.nodeEntry total).sfx h3) e he
    refine .mk ?_ ⟨_, _, hs.trans a2, h3⟩ (hes (rep_of_rep0 h4) (hs.trans a3)) (Or.inr rfl) hch.1
      ⟨s5, s6, hs.trans a5, ?_⟩ rfl hch.2
    · intro i hi
      rcases opt_ok.mp h1 with ⟨⟨b, j, a⟩, rfl, h1'⟩ | ⟨rfl, _, _⟩
      · cases hi
        obtain ⟨q1, q2, q3, rfl, h8, h9, _⟩ := tyP_inv h1'
        exact ⟨_, _, hs.tail.step Sfx.nodeSpace0.takeP h8, h9⟩
      · cases hi
    · rw [Option.isSome_map]
      exact h6

/-- The document, apart from a byte order mark, comes from runs. -/
theorem parse_run {s : Str} {d : Document} (h : Document.parse s = .ok d) :
    ∃ b d', (b = [] ∨ ∃ r, takeP bom s = .ok b r) ∧ DocRun (utf8Len s) s d' ∧ d = d'.prependLeading b := by
  have h := tryParse_ok.mp h
  unfold documentP at h
  rw [bind_ok] at h
  obtain ⟨b, s1, h1, h⟩ := h
  rw [bind_ok] at h
  obtain ⟨d', s2, h2, h⟩ := h
  have hs1 := (Sub.refl s).step (Strict.bom.sfx.takeP.opt) h1
  have key := RunsBelow.nodesF (k := s1.length + 1) RunsBelow.baseNode (Nat.lt_succ_self _) hs1 h2
  rw [bind_ok] at h
  obtain ⟨_, s3, _, h⟩ := h
  rcases opt_ok.mp h1 with ⟨b, rfl, h1'⟩ | ⟨rfl, _, _⟩
  · obtain ⟨rfl, _⟩ := pure_ok.mp h
    exact ⟨b, d', Or.inr ⟨_, h1'⟩, key, rfl⟩
  · obtain ⟨rfl, _⟩ := pure_ok.mp h
    refine ⟨[], _, Or.inl rfl, key, ?_⟩
    cases key with
    | mk => rfl

end

end Kdl
