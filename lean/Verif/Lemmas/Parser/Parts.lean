import Verif.Lemmas.Parser.Fix
import Verif.Lemmas.Parser.Lossless
import Verif.Spec.Parts
/-
What holds for every run of `identifier` and `node_entry` holds for all parts of
a parsed document.
-/

namespace Kdl
open Spec

/-- `s` is a suffix of `whole`. -/
def Sub (whole s : Str) : Prop := ∃ pre, whole = pre ++ s

theorem Sub.refl (s : Str) : Sub s s := ⟨[], rfl⟩
theorem Sub.trans {a b c : Str} (h : Sub a b) (h' : Sub b c) : Sub a c := by
  obtain ⟨p, rfl⟩ := h
  obtain ⟨q, rfl⟩ := h'
  exact ⟨p ++ q, by simp⟩
theorem Sub.step {α : Type} {p : P α} {whole s r : Str} {a : α} (h : Sub whole s) (hp : Sfx p)
    (e : p s = .ok a r) : Sub whole r := h.trans (hp _ _ _ e)
theorem Sub.tail {whole s : Str} {c : Char} (h : Sub whole (c :: s)) : Sub whole s :=
  h.trans ⟨[c], rfl⟩

section
variable [FloatIO]

/-- `Q` holds for whatever the parsers read from a suffix of `whole`. -/
structure PartsOk (total : Nat) (whole : Str) (Q : Part → Prop) : Prop where
  ident : ∀ {s r i}, Sub whole s → identifier total s = .ok i r → Q (.ident i)
  entry : ∀ {s r e}, Sub whole s → nodeEntry total s = .ok e r → Q (.entry e)
  node : ∀ {s r}, Sub whole s → Sub s r → Q (.node (spanOf total s r))
  doc : ∀ {s r}, Sub whole s → Sub s r → Q (.doc (spanOf total s r))

variable {total : Nat} {whole : Str} {Q : Part → Prop}

theorem PartsOk.tyP (hQ : PartsOk total whole Q) {s r b a : Str} {i : Ident} (hs : Sub whole s)
    (h : tyP total s = .ok (b, i, a) r) : Q (.ident i) := by
  obtain ⟨s1, s2, s3, rfl, h1, h2, h3⟩ := tyP_inv h
  exact hQ.ident (hs.tail.step Sfx.nodeSpace0.takeP h1) h2

theorem PartsOk.value (hQ : PartsOk total whole Q) {s r : Str} {e : Entry} (hs : Sub whole s)
    (h : value total s = .ok e r) : ∀ i ∈ e.ty, Q (.ident i) := by
  obtain ⟨s1, v, _, _, _, _, h'⟩ := value_inv h
  rcases h' with ⟨_, _, ht, _⟩ | ⟨b, i, a, q, after, h1, _, ht, _⟩
  · rw [ht]; rintro _ ⟨⟩
  · rw [ht]
    rintro j ⟨⟩
    exact hQ.tyP hs h1

theorem PartsOk.entryBody (hQ : PartsOk total whole Q) {s r : Str} {e : Entry} (hs : Sub whole s)
    (h : entryBody total s = .ok e r) : ∀ i ∈ entryIdents e, Q (.ident i) := by
  rcases entryBody_inv h with ⟨_, h⟩ | ⟨i, s1, _, _, _, rfl⟩ | ⟨i, s1, ak, s2, ae, s3, v, h1, h2, h3, h4, rfl⟩
  · have hn : e.name = none := by
      obtain ⟨_, _, _, _, hn, _⟩ := value_inv h
      exact hn
    intro i hi
    unfold entryIdents at hi
    rw [hn] at hi
    simp only [Option.toList_none, List.append_nil, Option.mem_toList] at hi
    exact hQ.value hs h i hi
  · rintro i ⟨⟩
  · intro j hj
    have hs1 := hs.step (Strict.identifier total).sfx h1
    have hs3 := (hs1.step Sfx.nodeSpace0.takeP h2).tail.step Sfx.nodeSpace0.takeP h3
    unfold entryIdents at hj
    simp only [Option.toList_some, List.mem_append, Option.mem_toList, List.mem_singleton] at hj
    rcases hj with hj | rfl
    · exact hQ.value hs3 h4 j hj
    · exact hQ.ident hs h1

omit [FloatIO] in
theorem Sfx.entryLeading' [FloatIO] (total : Nat) : Sfx (entryLeadingF (nodeEntry total)) := by
  intro s a r h
  exact ⟨a, entryLeadingF_text (Strict.nodeEntry total).sfx h⟩

theorem PartsOk.nodeEntry (hQ : PartsOk total whole Q) {s r : Str} {e : Entry} (hs : Sub whole s)
    (h : nodeEntry total s = .ok e r) : ∀ p ∈ entryParts e, Q p := by
  intro p hp
  rcases List.mem_cons.mp hp with rfl | hp
  · exact hQ.entry hs h
  · obtain ⟨i, hi, rfl⟩ := List.mem_map.mp hp
    rw [nodeEntry_unfold] at h
    obtain ⟨l, s1, e', h1, h2, rfl⟩ := nodeEntryF_inv h
    exact hQ.entryBody (hs.step (Sfx.entryLeading' total) h1) h2 i hi

theorem PartsOk.entriesP (hQ : PartsOk total whole Q) {s r : Str} {es : List Entry} (hs : Sub whole s)
    (h : entriesP total s = .ok es r) : ∀ p ∈ es.flatMap entryParts, Q p := by
  unfold Kdl.entriesP at h
  have hR := rep_of_rep0 h
  clear h
  induction hR with
  | nil _ => rintro _ ⟨⟩
  | @cons s1 r1 r2 a as h1 _ _ ih =>
    obtain ⟨_, q, h2, h3⟩ := bind_ok.mp h1
    obtain ⟨rfl, _⟩ := peek_ok.mp h2
    intro p hp
    rw [List.flatMap_cons] at hp
    rcases List.mem_append.mp hp with hp | hp
    · exact hQ.nodeEntry hs h3 p hp
    · exact ih (hs.step (Strict.nodeEntry total).sfx h3) p hp

/-- `Q` holds for the parts of the nodes that `base` reads. -/
def BaseParts (whole : Str) (Q : Part → Prop) (base : P Node) : Prop :=
  ∀ {s r n}, Sub whole s → base s = .ok n r → ∀ p ∈ nodeParts n, Q p

omit [FloatIO] in
theorem nodeParts_setFormat (n : Node) (f : Option NodeFmt) : nodeParts (n.setFormat f) = nodeParts n := by
  cases n
  simp only [Node.setFormat, nodeParts, Node.ty, Node.name, Node.entries, Node.children, Node.span]

omit [FloatIO] in
theorem nodesParts_giveLeading (l : Str) (ns : List Node) : nodesParts (giveLeading l ns).2 = nodesParts ns := by
  unfold giveLeading
  cases ns with
  | nil => rfl
  | cons n rest =>
    simp only
    cases n.format with
    | none => rfl
    | some f => simp only [nodesParts, nodeParts_setFormat]

theorem BaseParts.nodeF {base : P Node} (hb : BaseParts whole Q base) (hst : Strict base)
    {s r : Str} {n : Node} (hs : Sub whole s) (h : nodeF base s = .ok n r) : ∀ p ∈ nodeParts n, Q p := by
  unfold Kdl.nodeF at h
  obtain ⟨l, q, h1, h⟩ := bind_ok.mp h
  obtain ⟨n', q', h2, h⟩ := bind_ok.mp h
  obtain ⟨hn, rfl⟩ := pure_ok.mp h
  subst hn
  rw [nodeParts_setFormat]
  exact hb (hs.step (Sfx.leadingItems hst.sfx) h1) h2

theorem BaseParts.nodesF {base : P Node} (hQ : PartsOk total whole Q) (hb : BaseParts whole Q base)
    (hst : Strict base) {s r : Str} {d : Document} (hs : Sub whole s)
    (h : nodesF total base s = .ok d r) : ∀ p ∈ docParts d, Q p := by
  obtain ⟨lead, s1, ns, s2, o, s3, trail, h1, h2, h3, h4, rfl⟩ := nodesF_inv h
  have hs1 := hs.step (Sfx.leadingItems hst.sfx) h1
  have hsn : Sfx (Kdl.nodeF base) := (Strict.nodeF hst).sfx
  have hs2 : Sub s1 s2 := (Sub.refl s1).step (Sfx.sep0 hsn Strict.nodeTerminator.sfx) h2
  intro p hp
  rcases List.mem_cons.mp hp with rfl | hp
  · exact hQ.doc hs1 hs2
  · rw [nodesParts_giveLeading] at hp
    have hmore : ∀ {s r : Str} {ns : List Node}, SepMore (Kdl.nodeF base) nodeTerminator s ns r → Sub whole s →
        ∀ p ∈ nodesParts ns, Q p := by
      intro s r ns h
      induction h with
      | nil _ => intro _ p hp; simp [nodesParts] at hp
      | stop _ _ _ => intro _ p hp; simp [nodesParts] at hp
      | cons h _ hp ht ih =>
        intro hs p hp'
        unfold nodesParts at hp'
        have hq := hs.step Strict.nodeTerminator.sfx h
        rcases List.mem_append.mp hp' with hp' | hp'
        · exact hb.nodeF hst hq hp p hp'
        · exact ih (hq.step hsn hp) p hp'
    rcases sep0_ok.mp h2 with ⟨_, rfl, _⟩ | ⟨a, q, as, h5, h6, rfl⟩
    · simp [nodesParts] at hp
    · unfold nodesParts at hp
      rcases List.mem_append.mp hp with hp | hp
      · exact hb.nodeF hst hs1 h5 p hp
      · exact hmore (sepMore_inv hsn h6) (hs1.step hsn h5) p hp

theorem BaseParts.baseNodeF {base : P Node} (hQ : PartsOk total whole Q) (hb : BaseParts whole Q base)
    (hst : Strict base) : BaseParts whole Q (baseNodeF total base) := by
  intro s r n hs h
  obtain ⟨ty, s1, afterTy, s2, name, s3, es, s4, ch, s5, bt, t, s6, _, _, _, h1, h2, h3, h4, h5, h6, h7, rfl⟩ :=
    baseNodeF_inv h
  have hs1 := hs.step (Strict.tyP total).sfx.opt h1
  have hs2 := hs1.step Sfx.nodeSpace0.takeP h2
  have hs3 := hs2.step (Strict.identifier total).sfx h3
  have hs4 := hs3.step (Sfx.entriesP total) h4
  have hr : Sub s r := (((((((Sub.refl s).step (Strict.tyP total).sfx.opt h1).step Sfx.nodeSpace0.takeP h2).step
    (Strict.identifier total).sfx h3).step (Sfx.entriesP total) h4).step (Sfx.childrenP total hst) h5).step
    (Sfx.tailP total _ hst) h6).step Sfx.nodeSpace0 h7
  intro p hp
  simp only [mkNode, nodeParts, List.mem_cons, List.mem_append] at hp
  rcases hp with rfl | rfl | (hp | hp) | hp
  · exact hQ.node hs hr
  · exact hQ.ident hs2 h3
  · obtain ⟨i, hi, rfl⟩ := List.mem_map.mp hp
    rcases opt_ok.mp h1 with ⟨⟨b, j, a⟩, rfl, h1'⟩ | ⟨rfl, _, _⟩
    · simp at hi
      subst hi
      exact hQ.tyP hs h1'
    · simp at hi
  · exact hQ.entriesP hs3 h4 p hp
  · unfold childrenP at h5
    rcases opt_ok.mp h5 with ⟨⟨b, d⟩, rfl, h5'⟩ | ⟨rfl, _, _⟩
    · obtain ⟨b', q, h8, h5'⟩ := bind_ok.mp h5'
      obtain ⟨d', q', h9, h5'⟩ := bind_ok.mp h5'
      obtain ⟨e, _⟩ := pure_ok.mp h5'
      simp only [Prod.mk.injEq] at e
      obtain ⟨rfl, rfl⟩ := e
      obtain ⟨q2, rfl, h10⟩ := nodeChildrenF_inv h9
      have hq := hs4.step (Sfx.beforeNodeChildrenF total hst).takeP h8
      exact BaseParts.nodesF hQ hb hst hq.tail h10 p hp
    · simp [childrenParts] at hp

theorem BaseParts.baseNode (hQ : PartsOk total whole Q) : BaseParts whole Q (baseNode total) := by
  have key : ∀ k, BaseParts whole Q (baseNodeN total k) := by
    intro k
    induction k with
    | zero => intro s r n _ h; cases h
    | succ k ih => exact BaseParts.baseNodeF hQ ih (Strict.baseNodeN total k)
  intro s r n hs h
  exact key _ hs h

/-- The parts of a parsed document. -/
theorem documentP_parts {s : Str} {d : Document} (hQ : PartsOk (utf8Len s) s Q)
    (h : Document.parse s = .ok d) : ∀ p ∈ docParts d, Q p := by
  have h := tryParse_ok.mp h
  unfold documentP at h
  rw [bind_ok] at h
  obtain ⟨b, s1, h1, h⟩ := h
  rw [bind_ok] at h
  obtain ⟨d', s2, h2, h⟩ := h
  have hs1 := (Sub.refl s).step (Strict.bom.sfx.takeP.opt) h1
  have key := BaseParts.nodesF hQ (BaseParts.baseNode hQ) (Strict.baseNode _) hs1 h2
  rw [bind_ok] at h
  obtain ⟨_, s3, _, h⟩ := h
  cases b with
  | none =>
    obtain ⟨rfl, _⟩ := pure_ok.mp h
    exact key
  | some b =>
    obtain ⟨rfl, _⟩ := pure_ok.mp h
    cases d'
    exact key

omit [FloatIO] in
theorem nodeParts_setSpan (n : Node) (sp : Span) : nodeParts (n.setSpan sp) = .node sp :: (nodeParts n).tail := by
  cases n
  simp only [Node.setSpan, nodeParts, Node.ty, Node.name, Node.entries, Node.children, List.tail_cons]

/-- The parts of a parsed node. -/
theorem nodeParse_parts {s : Str} {n : Node} (hQ : PartsOk (utf8Len s) s Q)
    (h : Node.parse s = .ok n) : ∀ p ∈ nodeParts n, Q p := by
  have h := tryParse_ok.mp h
  unfold paddedNode at h
  rw [bind_here, bind_ok] at h
  obtain ⟨n', s1, h1, h⟩ := h
  rw [bind_ok] at h
  obtain ⟨o, s2, h2, h⟩ := h
  rw [bind_ok] at h
  obtain ⟨t, s3, h3, h⟩ := h
  rw [bind_here] at h
  obtain ⟨rfl, hs3⟩ := pure_ok.mp h
  have hst := Strict.baseNode (utf8Len s)
  have key := BaseParts.nodeF (BaseParts.baseNode hQ) hst (Sub.refl s) h1
  intro p hp
  rw [nodeParts_setSpan, nodeParts_setFormat] at hp
  rcases List.mem_cons.mp hp with rfl | hp
  · refine hQ.node (Sub.refl s) ((((Sub.refl s).step (Strict.nodeF hst).sfx h1).step
      Strict.nodeTerminator.sfx.opt h2).step (Sfx.rep0 ?_).takeP h3)
    exact (Strict.lineSpace.alt Strict.nodeSpace).sfx
  · exact key p (List.mem_of_mem_tail hp)

/-- The identifiers of a parsed entry. -/
theorem entryParse_idents {s : Str} {e : Entry} (hQ : PartsOk (utf8Len s) s Q)
    (h : Entry.parse s = .ok e) : ∀ i ∈ entryIdents e, Q (.ident i) := by
  have h := tryParse_ok.mp h
  unfold paddedNodeEntry at h
  rw [bind_here, bind_ok] at h
  obtain ⟨l, s1, h1, h⟩ := h
  rw [bind_ok] at h
  obtain ⟨e', s2, h2, h⟩ := h
  rw [bind_ok] at h
  obtain ⟨t, s3, h3, h⟩ := h
  rw [bind_here] at h
  obtain ⟨rfl, _⟩ := pure_ok.mp h
  have hs1 := (Sub.refl s).step (Sfx.rep0 Strict.lineSpace.sfx).takeP h1
  intro i hi
  exact hQ.nodeEntry hs1 h2 _ (List.mem_cons_of_mem _ (List.mem_map_of_mem hi))

end

end Kdl
