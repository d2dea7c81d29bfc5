import Verif.Lemmas.Parser.EditText
import Verif.Spec.Session
/-
`TidyDoc` is an invariant of documents that print as valid KDL.
-/

namespace Kdl
open Spec

section
variable [FloatIO]

/-! ### The invariant -/

/-- The formatting of a sealed node is in order. -/
def SealedFmt (n : Node) : Prop := Sealed n ∧
  (n.children = none → ∀ x, Text (.mid false) (endOf n ++ x) (beforeTerm n)) ∧ (n.children.isSome = true → TailSrc (beforeTerm n))

/-- The formatting of the last node of a block is in order, if `tr` and then `r` follow
the node. -/
def Follows (r tr : Str) (n : Node) : Prop :=
  (n.children = none → (endOf n ++ tr = [] ∧ Text (.mid false) r (beforeTerm n)) ∨
    ∃ m L, endOf n ++ tr = m ++ L ∧ TermText m (L ++ r) ∧ Text .lead r L ∧ Text (.mid false) (m ++ (L ++ r)) (beforeTerm n)) ∧
  (n.children.isSome = true → TailSrc (beforeTerm n) ∧
    (Text .lead r (endOf n ++ tr) ∨ ∃ m L, endOf n ++ tr = m ++ L ∧ TermText m (L ++ r) ∧ Text .lead r L))

omit [FloatIO] in
/-- The text recorded in front of the first node. -/
def docLead (f : Option DocFmt) : Str := match f with | some f => f.leading | none => []

omit [FloatIO] in
/-- The text recorded after the last node. -/
def docTrail (f : Option DocFmt) : Str := match f with | some f => f.trailing | none => []

mutual
/-- The parts of the node can be printed. -/
inductive TidyNode : Node → Prop
  | mk {ty : Option Ident} {name : Ident} {es : List Entry} {ch : Option Document} {f : Option NodeFmt} {sp : Span}
      (ht : ∀ i ∈ ty, ReadableIdent i) (hn : ReadableIdent name) (he : ∀ e ∈ es, ReadableEntry e)
      (hl : ∀ f', f = some f' → Text .lead ['a'] f'.leading)
      (hb : ch.isSome = true → ∀ f', f = some f' → ∀ x, Text (.mid false) ('{' :: x) f'.beforeChildren)
      (hd : ∀ d, ch = some d → TidyDoc ['}'] d) : TidyNode (.mk ty name es ch f sp)
/-- The document can be printed in front of `r`. -/
inductive TidyDoc : Str → Document → Prop
  | mk {r : Str} {ns : List Node} {f : Option DocFmt} {sp : Span} (h : ∀ n ∈ ns, TidyNode n)
      (hs : ∀ n ∈ ns.dropLast, SealedFmt n)
      (hl : ∀ n, ns.getLast? = some n → SealedFmt n ∨ (f.isSome = true ∧ Follows r (docTrail f) n))
      (h1 : Text .lead r (docTrail f)) (h2 : Text .lead r (docLead f ++ docTrail f))
      (h3 : ns ≠ [] → docLead f = [] ∨ (Text .lead ['a'] (docLead f) ∧ ∀ n ∈ ns, ∃ f', n.format = some f' ∧ f'.leading = [])) :
      TidyDoc r (.mk ns f sp)
end

/-! ### The printed text -/

theorem lead_swap {x L : Str} (h : Text .lead ['a'] L) (hx : Starts x) : Text .lead x L :=
  h.swap (p := []) (x := ['a']) rfl (by simp) (Or.inl ⟨⟨'a', [], rfl, Or.inl (by decide)⟩, hx⟩)

theorem spaces_lspace (r : Str) : ∀ n, LSpace r (spaces n)
  | 0 => .nil
  | n + 1 => .space (by decide) (spaces_lspace r n)

/-- What is printed for a tidy node. -/
def NodeGoal (n : Node) : Prop := ∀ ind,
  (n.children = none → ∀ r w, Text (.mid false) r w → Text (.node false (semNode id n)) r (n.coreText ind ++ w)) ∧
  (n.children.isSome = true → ∀ k r w, Text .tail r w → Text (.node k (semNode id n)) r (n.coreText ind ++ w))

theorem leadText_ok {n : Node} (h : TidyNode n) (ind : Nat) {x : Str} (hx : Starts x) : Text .lead x (n.leadText ind) := by
  cases h with
  | @mk ty name es ch f sp ht hn he hl hb hd =>
    cases f with
    | none =>
      have := Text.leadSpace (L := []) (spaces_lspace _ ind) (Text.leadNil (r := x))
      simpa [Node.leadText, Node.format] using this
    | some f => exact lead_swap (hl f rfl) hx

theorem stringify_end (n : Node) (ind : Nat) :
    n.stringify ind = n.leadText ind ++ (n.coreText ind ++ (beforeTerm n ++ endOf n)) := by
  rw [Node.stringify_split]
  simp only [Node.afterText, beforeTerm, endOf]
  cases n.format <;> simp

/-- A sealed node, in front of anything. -/
theorem sealed_text {n : Node} (hg : NodeGoal n) (hs : SealedFmt n) (ind : Nat) (x : Str) :
    Text (.node false (semNode id n)) (endOf n ++ x) (n.coreText ind ++ beforeTerm n) := by
  obtain ⟨h1, h2, h3⟩ := hs
  cases hc : n.children with
  | none => exact (hg ind).1 hc _ _ (h2 hc x)
  | some d =>
    have := (h3 (by simp [hc])).tail (r := endOf n ++ x) .nil
    rw [List.append_nil] at this
    exact (hg ind).2 (by simp [hc]) _ _ _ this

theorem nodes_text {r tr : Str} (ind : Nat) (htr : Text .lead r tr) : ∀ (ns : List Node) (n : Node), (∀ m ∈ n :: ns, TidyNode m) →
    (∀ m ∈ n :: ns, NodeGoal m) → (∀ m ∈ (n :: ns).dropLast, SealedFmt m) →
    (∀ m, (n :: ns).getLast? = some m → SealedFmt m ∨ Follows r tr m) →
    ∃ T, Text (.items (semNodes id (n :: ns))) r T ∧ nodesStringify (n :: ns) ind ++ tr = n.leadText ind ++ T
  | [], n, ht, hg, _, hl => by
    have hn := hg n (by simp)
    simp only [nodesStringify, List.append_nil, stringify_end, semNodes, List.append_assoc]
    refine ⟨_, ?_, rfl⟩
    rcases hl n rfl with hs | hf
    · rw [← List.append_assoc]
      exact .lastTerm (sealed_text hn hs ind _) (hs.1 _) htr
    · obtain ⟨h1, h2⟩ := hf
      cases hc : n.children with
      | none =>
        rcases h1 hc with ⟨e, hm⟩ | ⟨m, L, e, hm, hL, hw⟩
        · rw [e, List.append_nil]
          exact .last ((hn ind).1 hc _ _ hm)
        · rw [e, ← List.append_assoc]
          exact .lastTerm ((hn ind).1 hc _ _ hw) hm hL
      | some d =>
        obtain ⟨h3, h4⟩ := h2 (by simp [hc])
        have hB : ∀ k r' w, NSpace r' w → Text (.node k (semNode id n)) r' (n.coreText ind ++ beforeTerm n ++ w) := by
          intro k r' w hw
          rw [List.append_assoc]
          exact (hn ind).2 (by simp [hc]) _ _ _ (h3.tail hw)
        rcases h4 with h4 | ⟨m, L, e, hm, hL⟩
        · rw [← List.append_assoc]
          exact last_lead hB h4
        · rw [e, ← List.append_assoc]
          exact .lastTerm (by simpa using hB false _ [] .nil) hm hL
  | n2 :: ns, n, ht, hg, hs, hl => by
    obtain ⟨T, hT, e⟩ := nodes_text ind htr ns n2 (fun m hm => ht m (by simp [List.mem_cons.mp hm]))
      (fun m hm => hg m (by simp [List.mem_cons.mp hm]))
      (fun m hm => hs m (by rw [List.dropLast_cons_cons]; exact List.mem_cons_of_mem _ hm))
      (fun m hm => hl m (by rw [List.getLast?_cons_cons]; exact hm))
    have hsn := hs n (by simp [List.dropLast])
    have hst := (items_starts hT).append r
    refine ⟨n.coreText ind ++ beforeTerm n ++ (endOf n ++ (n2.leadText ind ++ T)), ?_, ?_⟩
    · exact .cons (sealed_text (hg n (by simp)) hsn ind _) (hsn.1 _) (leadText_ok (ht n2 (by simp)) ind hst) hT
    · rw [nodesStringify, List.append_assoc, e, stringify_end]
      simp

mutual
theorem TidyNode.goal : ∀ {n : Node}, TidyNode n → NodeGoal n
  | .mk ty name es none f sp, .mk ht hn he hl hb hd => by
    intro ind
    refine ⟨fun _ r w hw => ?_, by simp [Node.children]⟩
    have := Text.leaf (tyText_text (nt := name.display) ht) hn (ReadableEntry.texts he) hw
    simpa [Node.coreText, Node.ty, Node.name, Node.entries, Node.children, childrenStringify, semNode, semOptDoc] using this
  | .mk ty name es (some d) f sp, .mk ht hn he hl hb hd => by
    intro ind
    refine ⟨by simp [Node.children], fun _ k r w hw => ?_⟩
    have hD := TidyDoc.goal (hd d rfl) (ind + 4) ind
    have hmid : ∀ x, Text (.mid false) ('{' :: x) (beforeText es f) := by
      intro x
      cases f with
      | some f => exact hb rfl f rfl x
      | none =>
        have : beforeText es none = [' '] ∨ beforeText es none = [] := by
          unfold beforeText
          by_cases hsp : spaceBeforeChildren es = true
          · exact Or.inl (if_pos hsp)
          · exact Or.inr (if_neg hsp)
        rcases this with e | e <;> rw [e]
        · exact .midSpace (.space (by decide) .nil)
        · exact .midSpace .nil
    have := Text.block (k := k) (tyText_text (nt := name.display) ht) hn (ReadableEntry.texts he) hmid
      (fun x => hD.brace (Or.inr rfl) x) hw
    simpa [Node.coreText, Node.ty, Node.name, Node.entries, Node.children, Node.format, childrenStringify, semNode,
      semOptDoc] using this
theorem TidyDoc.goal : ∀ {r : Str} {d : Document}, TidyDoc r d → ∀ (ind ind' : Nat),
    Text (.nodes (semDoc id d)) r ((if d.format.isNone then ['\n'] else []) ++ (d.stringify ind ++
      (if d.format.isNone then spaces ind' else [])))
  | r, .mk ns f sp, .mk h hs hl h1 h2 h3 => by
    intro ind ind'
    have hgs : ∀ n ∈ ns, NodeGoal n := fun n hn => TidyNode.goal (h n hn)
    cases f with
    | some f =>
      simp only [Document.format, Option.isNone_some, Document.stringify, semDoc, List.append_nil, List.nil_append,
        Bool.false_eq_true, if_false, List.append_assoc]
      cases ns with
      | nil => simpa [nodesStringify, semNodes, docLead, docTrail] using Text.empty h2
      | cons n ns =>
        obtain ⟨T, hT, e⟩ := nodes_text (tr := f.trailing) ind h1 ns n h hgs hs fun m hm => (hl m hm).imp id And.right
        rw [e, ← List.append_assoc]
        have hst := (items_starts hT).append r
        have hlt := leadText_ok (h n (by simp)) ind hst
        refine .items ?_ hT
        rcases h3 (by simp) with e1 | ⟨h4, h5⟩
        · rw [show f.leading = [] from e1]
          exact hlt
        · obtain ⟨f', h6, h7⟩ := h5 n (by simp)
          have e2 : n.leadText ind = [] := by simp [Node.leadText, h6, h7]
          rw [e2, List.append_nil]
          exact lead_swap h4 hst
    | none =>
      have nl : ∀ x, LSpace x ['\n'] := fun x => .newline (m := ['\n']) (t := []) (Or.inr ⟨_, rfl, by decide, by simp⟩) .nil
      have htr : Text .lead r (spaces ind') := by
        have := Text.leadSpace (L := []) (spaces_lspace _ ind') (Text.leadNil (r := r))
        simpa using this
      simp only [Document.format, Option.isNone_none, Document.stringify, semDoc, List.append_nil, List.nil_append, if_true]
      cases ns with
      | nil => exact .empty (.leadSpace (nl _) htr)
      | cons n ns =>
        obtain ⟨T, hT, e⟩ := nodes_text ind htr ns n h hgs hs fun m hm => by
          rcases hl m hm with h | ⟨h, _⟩
          · exact Or.inl h
          · cases h
        rw [e, ← List.append_assoc]
        exact .items (.leadSpace (nl _) (leadText_ok (h n (by simp)) ind ((items_starts hT).append r))) hT
end

end

end Kdl
