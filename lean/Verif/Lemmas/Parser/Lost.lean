import Verif.Lemmas.Parser.EditText
import Verif.Lemmas.Parser.PrintDoc
/-
A printed document in which two nodes are not parted by a terminator is not accepted.
-/

namespace Kdl
open Spec

section
variable [FloatIO]

/-! ### The parser does not get through -/

/-- The parser does not read the text as nodes up to the end of a block. -/
def Blocked (s : Str) : Prop := ∀ total d x, nodesF total (baseNode total) s = .ok d x → ¬ DocEnd x

theorem nodesF_noBack (total : Nat) (base : P Node) : NoBack (nodesF total base) := by
  have hl : NoBack (leadingItems base) := NoBack.takeP (NoBack.rep0 _)
  have hs : NoBack (sep0 (nodeF base) nodeTerminator) := by
    intro s h
    unfold sep0 at h
    cases h1 : nodeF base s with
    | ok a r =>
      rw [h1] at h
      simp only at h
      cases h2 : sepMore (nodeF base) nodeTerminator r with
      | back => exact sepFuel_noBack _ _ h2
      | ok l q => rw [h2] at h; cases h
      | cut => rw [h2] at h; cases h
      | crash => rw [h2] at h; cases h
    | back => rw [h1] at h; cases h
    | cut => rw [h1] at h; cases h
    | crash => rw [h1] at h; cases h
  unfold nodesF
  exact hl.bind fun _ => NoBack.here.bind fun _ => hs.bind fun _ => NoBack.here.bind fun _ => (NoBack.opt _).bind fun _ =>
    hl.bind fun _ => NoBack.pure _

/-- A children block that the parser does not get through. -/
theorem childrenP_blocked {w D : Str} (h4 : Mid w ('{' :: D)) (hD : Blocked D) (total : Nat) {ch : Option (Str × Document)} {z : Str} :
    childrenP total (baseNode total) (w ++ '{' :: D) ≠ .ok ch z := by
  intro h
  unfold childrenP at h
  have h5 : ∀ a x, (do
      let b ← takeP (beforeNodeChildrenF total (baseNode total))
      let d ← nodeChildrenF total (baseNode total)
      return (b, d) : P (Str × Document)) (w ++ '{' :: D) ≠ .ok a x := by
    intro a x h
    rw [bind_eq (takeP_eq (h4.2 total)), bind_ok] at h
    obtain ⟨d, y, h, _⟩ := h
    unfold nodeChildrenF at h
    rw [bind_eq (lit_one _ _), bind_ok] at h
    obtain ⟨d', y', h1, h⟩ := h
    rw [bind_ok] at h
    obtain ⟨_, y2, h2, _⟩ := h
    have h3 := cutErr_ok.mp h2
    have := lit_ok.mp h3
    exact hD total d' y' h1 (Or.inr ⟨_, this⟩)
  have h6 : (do
      let b ← takeP (beforeNodeChildrenF total (baseNode total))
      let d ← nodeChildrenF total (baseNode total)
      return (b, d) : P (Str × Document)) (w ++ '{' :: D) ≠ .back := by
    intro h
    rw [bind_eq (takeP_eq (h4.2 total))] at h
    have hc : nodeChildrenF total (baseNode total) ('{' :: D) ≠ .back := by
      unfold nodeChildrenF
      rw [bind_eq (lit_one _ _)]
      exact NoBack.bind (nodesF_noBack _ _) (fun _ => (NoBack.cutErr _).bind fun _ => NoBack.pure _) _
    cases h7 : nodeChildrenF total (baseNode total) ('{' :: D) with
    | ok a r => rw [bind_eq h7] at h; cases h
    | back => exact hc h7
    | cut => rw [bind_cut h7] at h; cases h
    | crash => rw [bind_crash h7] at h; cases h
  unfold opt at h
  split at h
  · exact h5 _ _ ‹_›
  · exact h6 ‹_›
  · cases h
  · cases h

/-- A node whose children block the parser does not get through. -/
theorem baseNode_blocked {α : Type} {g : Value → α} {ty : Option Str} {tt nm nt T w D : Str} {ds : List (SEntry α)}
    (h1 : TyTok ty tt) (h2 : StrTok nm nt) (h3 : EntsTok g ds T) (h4 : Mid w ('{' :: D)) (hD : Blocked D) (total : Nat) (n : Node) (z : Str) :
    baseNode total (tt ++ (nt ++ (T ++ (w ++ '{' :: D)))) ≠ .ok n z := by
  intro h
  obtain ⟨es, e6, _⟩ := h3.entries h4.1 total
  have hY := (h3.follow h4.1).1
  have hs := h1.starts (h2.starts.append (T ++ (w ++ '{' :: D)))
  obtain ⟨e1, e2⟩ := hs.notEnd
  obtain ⟨o, q1, af, e3, e4, e5⟩ := h1.parse (h2.starts.append (T ++ (w ++ '{' :: D))) (h2.not_paren _) total
  have e8 := identifier_eq (total := total) (h2 _ hY)
  have hne : nt ≠ [] := by
    obtain ⟨c, q, rfl, _⟩ := h2.head
    simp
  rw [baseNode_unfold] at h
  unfold baseNodeF at h
  rw [bind_eq e1, bind_here, bind_eq e2, bind_eq e3, bind_eq e4, bind_eq (cutErr_eq e8)] at h
  simp only [Option.some.injEq, hne, if_false] at h
  rw [bind_eq e6, bind_ok] at h
  obtain ⟨ch, z', h, _⟩ := h
  exact childrenP_blocked h4 hD total h

/-- The parser does not read the text, in front of which it has read `p`, as nodes up to the
end of a block. -/
def BlockedItems (X : Str) : Prop := ∀ total p L, leadingItems (baseNode total) p = .ok L X →
  ∀ n q ns q1 u q2 L' x, nodeF (baseNode total) p = .ok n q → SepMore (nodeF (baseNode total)) nodeTerminator q ns q1 →
    opt nodeTerminator q1 = .ok u q2 → leadingItems (baseNode total) q2 = .ok L' x → ¬ DocEnd x

/-! ### Changes -/

theorem Spec.Changed.format {n n' : Node} (h : Changed n n') : n'.format = n.format := by
  cases h; rfl

theorem Spec.Changed.leadOf {n n' : Node} (h : Changed n n') : leadOf n' = leadOf n := by
  unfold Kdl.leadOf; rw [h.format]

theorem Spec.Changed.termOf {n n' : Node} (h : Changed n n') : termOf n' = termOf n := by
  unfold Kdl.termOf; rw [h.format]

theorem Spec.ChangedDoc.formatEq {d d' : Document} (h : ChangedDoc d d') : d'.format = d.format := by
  cases h; rfl

mutual
theorem Spec.Changed.edited : ∀ {n n' : Node}, Changed n n' → TerminatedNode n → Edited n n'
  | .mk _ _ _ none _ _, _, h, _ => by
    cases h with
    | mk h1 h2 h3 h4 =>
      cases h4
      exact .mk h1 h2 h3 .none
  | .mk _ _ _ (some d) _ _, _, h, ht => by
    cases h with
    | mk h1 h2 h3 h4 =>
      cases h4 with
      | some h4 =>
        cases ht with
        | mk ht => exact .mk h1 h2 h3 (.some (Spec.ChangedDoc.edited h4 (ht _ rfl)))
theorem Spec.ChangedDoc.edited : ∀ {d d' : Document}, ChangedDoc d d' → Terminated d → EditedDoc d d'
  | .mk _ _ _, _, h, ht => by
    cases h with
    | mk h =>
      cases ht with
      | mk h1 h2 => exact .mk (Spec.ChangedNodes.edited h h1 h2)
theorem Spec.ChangedNodes.edited {tr : Str} : ∀ {ns ns' : List Node}, ChangedNodes tr ns ns' → (∀ n ∈ ns, TerminatedNode n) →
    PartedAll ns → EditedNodes tr ns ns'
  | [], _, h, _, _ => by cases h; exact .nil
  | [n], _, h, h1, _ => by
    cases h with
    | last h hg => exact .last (Spec.Changed.edited h (h1 n (by simp))) hg
  | n :: m :: ns, _, h, h1, h2 => by
    cases h with
    | cons h hr =>
      exact .cons (Spec.Changed.edited h (h1 n (by simp))) h2.1
        (Spec.ChangedNodes.edited hr (fun x hx => h1 x (by simp [List.mem_cons] at hx ⊢; exact Or.inr hx)) h2.2)
end

mutual
theorem Spec.Changed.refl : ∀ n : Node, Changed n n
  | .mk _ _ _ none _ _ => .mk (Or.inl rfl) (Or.inl rfl) (Or.inl rfl) .none
  | .mk _ _ _ (some d) _ _ => .mk (Or.inl rfl) (Or.inl rfl) (Or.inl rfl) (.some (Spec.ChangedDoc.refl d))
theorem Spec.ChangedDoc.refl : ∀ d : Document, ChangedDoc d d
  | .mk ns _ _ => .mk (Spec.ChangedNodes.refl _ ns)
theorem Spec.ChangedNodes.refl (tr : Str) : ∀ ns : List Node, ChangedNodes tr ns ns
  | [] => .nil
  | [n] => .last (Spec.Changed.refl n) (Or.inl rfl)
  | n :: m :: ns => .cons (Spec.Changed.refl n) (Spec.ChangedNodes.refl tr (m :: ns))
end

/-- What is shown for each category. -/
def LostGoal (r : Str) : TCat → Prop
  | .node _ n => ¬ TerminatedNode n → ∀ n', Changed n n' → ∀ ind y total m z, baseNode total (bodyText n' ind ++ y) ≠ .ok m z
  | .items ns tr => ((∀ n ∈ ns, TerminatedNode n) ∧ PartedAll ns) ∨ ∀ ns', ChangedNodes tr ns ns' → ∀ ind r', Ctx r r' →
      ∃ T, Starts T ∧ BlockedItems (T ++ r') ∧ nodesStringify ns' ind ++ tr = (match ns with | n :: _ => leadOf n | [] => []) ++ T
  | .nodes d => Terminated d ∨ ∀ d', ChangedDoc d d' → ∀ ind r', Ctx r r' →
      Blocked (d'.stringify ind ++ r') ∧ ∀ q, d'.stringify ind ≠ Char.ofNat 0xFEFF :: q

theorem blocked_first {n : Node} {ind : Nat} (h : ∀ y total m z, baseNode total (bodyText n ind ++ y) ≠ .ok m z) (y : Str) :
    BlockedItems (bodyText n ind ++ y) := by
  intro total p L hp a q ns q1 u q2 L' x h1
  obtain ⟨l, q', n', h2, h3, _⟩ := nodeF_inv h1
  rw [hp] at h2
  injection h2 with _ e
  subst e
  exact absurd h3 (h _ _ _ _)

theorem Tree.bodyStarts {k : Bool} {n n' : Node} {r B : Str} (h : Tree (.node k n) r B) (hc : Changed n n') (ind : Nat) :
    Starts (bodyText n' ind) := by
  have key : ∀ {ty ty' : Option Ident} {name name' : Ident} {nt tt : Str} {f : NodeFmt}, TySrc nt ty f tt → name.repr = some nt →
      StrText nt name.value → (ty' = ty ∨ ∀ i ∈ ty', ReadableIdent i) → (name' = name ∨ ReadableIdent name') →
      ∀ y, Starts (tyText ty' ++ (name'.display ++ y)) := by
    intro ty ty' name name' nt tt f h1 hn h2 ht hn' y
    have a2 := readable_name hn h2 hn'
    have a1 := tyText_text (nt := name'.display) (readable_ty h1.readable ht)
    exact (TyTok.text a1 a2.ne).starts ((StrTok.text a2).starts.append y)
  unfold bodyText Node.coreText
  simp only [List.append_assoc]
  cases hc with
  | mk g1 g2 g3 g4 =>
  cases h with
  | leaf h1 hn h2 => exact key h1 hn h2 g1 g2 _
  | leafKeyword h1 hn h2 => exact key h1 hn h2 g1 g2 _
  | block h1 hn h2 => exact key h1 hn h2 g1 g2 _

omit [FloatIO] in
theorem not_docEnd {x : Str} (h : Starts x) : ¬ DocEnd x := by
  obtain ⟨c, q, rfl, hc⟩ := h
  rintro (h | ⟨y, h⟩)
  · cases h
  · exact hc.facts.2.2.2.2.1 (List.cons.inj h).1

/-- A node that is read, in front of a text that is not read as nodes. -/
theorem blocked_rest {B m L T r : Str} (hB : ∀ total, ∃ n, baseNode total (B ++ (m ++ (L ++ (T ++ r)))) = .ok n (m ++ (L ++ (T ++ r))))
    (hm : TermText m (L ++ (T ++ r))) (hL : Text .lead (T ++ r) L) (hT : Starts T) (h : BlockedItems (T ++ r)) :
    BlockedItems (B ++ (m ++ (L ++ (T ++ r)))) := by
  intro total p L0 hp a q ns q1 u q2 L' x h1 h2 h3 h4
  obtain ⟨l, q', n', h5, h6, _⟩ := nodeF_inv h1
  rw [hp] at h5
  injection h5 with _ e
  subst e
  obtain ⟨n, hn⟩ := hB total
  rw [hn] at h6
  injection h6 with _ e
  subst e
  have h7 := termText_eq hm
  have h8 := leadingItems_of (total := total) hL.reads (hT.append r).solid
  cases h2 with
  | nil h => rw [h7] at h; cases h
  | stop h _ hp' =>
    rw [opt_some h7] at h3
    injection h3 with _ e
    subst e
    rw [h8] at h4
    injection h4 with _ e
    subst e
    exact not_docEnd (hT.append r)
  | cons h _ hp' ht =>
    rw [h7] at h
    injection h with _ e
    subst e
    exact h total _ _ h8 _ _ _ _ _ _ _ _ hp' ht h3 h4

/-- A node that is read, in front of another node. -/
theorem blocked_here {B r L T : Str} (hB : ∀ total, ∃ n, baseNode total (B ++ (L ++ (T ++ r))) = .ok n (L ++ (T ++ r)))
    (hm : nodeTerminator (L ++ (T ++ r)) = .back) (hL : Text .lead (T ++ r) L) (hT : Starts T) :
    BlockedItems (B ++ (L ++ (T ++ r))) := by
  intro total p L0 hp a q ns q1 u q2 L' x h1 h2 h3 h4
  obtain ⟨l, q', n', h5, h6, _⟩ := nodeF_inv h1
  rw [hp] at h5
  injection h5 with _ e
  subst e
  obtain ⟨n, hn⟩ := hB total
  rw [hn] at h6
  injection h6 with _ e
  subst e
  have h8 := leadingItems_of (total := total) hL.reads (hT.append r).solid
  have h9 : ∀ {q1}, q1 = L ++ (T ++ r) → opt nodeTerminator q1 = .ok u q2 → ¬ DocEnd x := by
    rintro _ rfl h3
    rw [opt_none hm] at h3
    injection h3 with _ e
    subst e
    rw [h8] at h4
    injection h4 with _ e
    subst e
    exact not_docEnd (hT.append r)
  cases h2 with
  | nil h => exact h9 rfl h3
  | stop h _ hp' => rw [hm] at h; cases h
  | cons h _ hp' ht => rw [hm] at h; cases h

theorem Tree.itemsStarts {ns ns' : List Node} {tr r T : Str} (h : Tree (.items ns tr) r T) (hc : ChangedNodes tr ns ns') (ind : Nat) :
    ∃ n ns2 T', ns = n :: ns2 ∧ Starts T' ∧ nodesStringify ns' ind ++ tr = leadOf n ++ T' := by
  have key : ∀ {k : Bool} {n n' : Node} {r B : Str} (ns ns' : List Node), Tree (.node k n) r B → Changed n n' →
      ∃ m ns2 T', n :: ns = m :: ns2 ∧ Starts T' ∧ nodesStringify (n' :: ns') ind ++ tr = leadOf m ++ T' := by
    intro k n n' r B ns ns' hB hn
    obtain ⟨f, hf, hft⟩ := hB.trailing
    refine ⟨n, ns, bodyText n' ind ++ (termOf n' ++ (nodesStringify ns' ind ++ tr)), rfl, (hB.bodyStarts hn ind).append _, ?_⟩
    rw [← hn.leadOf]
    simp [nodesStringify, stringify_body (hn.format.trans hf) hft]
  cases h with
  | last hB => cases hc with | last hn _ => exact key _ _ hB hn
  | lastTerm hB => cases hc with | last hn _ => exact key _ _ hB hn
  | lastSlash hB => cases hc with | last hn _ => exact key _ _ hB hn
  | cons hB => cases hc with | cons hn _ => exact key _ _ hB hn

omit [FloatIO] in
theorem termText_cut {m x r : Str} (h : TermText m (x ++ r)) (hr : x ++ r ≠ []) : TermText m x := by
  have key : ∀ {nl : Str}, NewlineSeq nl (x ++ r) → NewlineSeq nl x := by
    rintro nl (h | ⟨c, h1, h2, h3⟩)
    · exact Or.inl h
    · exact Or.inr ⟨c, h1, h2, fun hc q e => h3 hc (q ++ r) (by rw [e]; rfl)⟩
  rcases h with h | h | ⟨b, nl, h1, h2, h3 | ⟨_, h3⟩⟩
  · exact Or.inl h
  · exact Or.inr (Or.inl (key h))
  · exact Or.inr (Or.inr ⟨b, nl, h1, h2, Or.inl (key h3)⟩)
  · exact absurd h3 hr

theorem Tree.lost {c : TCat} {r t : Str} (h : Tree c r t) : LostGoal r c := by
  have hlast : ∀ {k : Bool} {n : Node} {r B tr : Str}, Tree (.node k n) r B → LostGoal r (.node k n) →
      ∀ r0, LostGoal r0 (.items [n] tr) := by
    intro k n r B tr hB ih r0
    by_cases ht : TerminatedNode n
    · exact Or.inl ⟨by simpa using ht, trivial⟩
    · refine Or.inr fun ns' hn ind r' _ => ?_
      obtain ⟨f, hf, hft⟩ := hB.trailing
      cases hn with
      | @last _ _ n' hn _ =>
      refine ⟨bodyText n' ind ++ (termOf n' ++ tr), (hB.bodyStarts hn ind).append _, ?_, ?_⟩
      · rw [List.append_assoc]
        exact blocked_first (fun y total m z => ih ht n' hn ind y total m z) _
      · show _ = leadOf n ++ _
        rw [← hn.leadOf]
        simp [nodesStringify, stringify_body (hn.format.trans hf) hft]
  induction h with
  | leaf => exact fun h => absurd (.mk (by simp)) h
  | leafKeyword => exact fun h => absurd (.mk (by simp)) h
  | @block k ty name es d f span tt nt T w D v u r h1 hn h2 h3 h4 hw hd h6 hu h7 h8 ih =>
    intro ht n' hn' ind y total m z
    cases hn' with
    | @mk _ ty' _ name' _ es' _ _ _ _ sp' g1 g2 g3 g4 =>
    cases g4 with
    | @some _ d' g4 =>
    have a1 := tyText_text (nt := name'.display) (readable_ty h1.readable g1)
    have a2 := readable_name hn h2 g2
    have a3 := readable_entries h3.readable g3
    obtain ⟨fd, hfd⟩ := hd.formatDoc
    have hfd := g4.formatEq.trans hfd
    have eb : bodyText (.mk ty' name' es' (some d') (some f) sp') ind ++ y =
        tyText ty' ++ (name'.display ++ (displayEntries es' ++ (w ++ '{' :: (d'.stringify (ind + 4) ++ '}' :: (f.beforeTerminator ++ y))))) := by
      simp [bodyText, Node.coreText, beforeTerm, Node.ty, Node.name, Node.entries, Node.children, Node.format,
        childrenStringify, hfd, beforeText, hw]
    rw [eb]
    refine baseNode_blocked (TyTok.text a1 a2.ne) (StrTok.text a2) (EntsTok.text a3)
      ((h4 _).reads (Or.inl (Or.inr (Or.inl ⟨_, rfl⟩)))) ?_ total m z
    rcases ih with ih | ih
    · exact absurd (.mk (by simpa using ih)) ht
    · exact (ih d' g4 (ind + 4) _ (Ctx.brace (v ++ r) _)).1
  | last hB _ ih => exact hlast hB ih _
  | lastTerm hB _ _ _ ih => exact hlast hB ih _
  | lastSlash hB _ _ ih => exact hlast hB ih _
  | @cons k r B m L T tr n n2 ns hB hm hL ht hT h2 ihB ihT =>
    by_cases htn : TerminatedNode n
    case neg =>
      refine Or.inr fun ns' hn ind r' _ => ?_
      obtain ⟨f, hf, hft⟩ := hB.trailing
      cases hn with
      | @cons _ _ n' _ n2' _ ns2 hn hrest =>
      refine ⟨bodyText n' ind ++ (termOf n' ++ (nodesStringify (n2' :: ns2) ind ++ tr)), (hB.bodyStarts hn ind).append _, ?_, ?_⟩
      · rw [List.append_assoc]
        exact blocked_first (fun y total m z => ihB htn n' hn ind y total m z) _
      · show _ = leadOf n ++ _
        rw [← hn.leadOf]
        simp [nodesStringify, stringify_body (hn.format.trans hf) hft]
    by_cases hp : Parted n (n2 :: ns)
    case pos =>
      rcases ihT with ⟨g1, g2⟩ | ihT
      · refine Or.inl ⟨fun x hx => ?_, hp, g2⟩
        rcases List.mem_cons.mp hx with rfl | hx
        · exact htn
        · exact g1 x hx
      · refine Or.inr fun ns' hn ind r' hr => ?_
        obtain ⟨f, hf, hft⟩ := hB.trailing
        cases hn with
        | @cons _ _ n' _ n2' _ ns2 hn hrest =>
        have hed := hn.edited htn
        have hf := hn.format.trans hf
        have ht : termOf n' = m ∨ termOf n' = [] ∧ n.children.isSome = true := by
          rw [hn.termOf]
          exact ht
        obtain ⟨T', hs, hb, e⟩ := ihT _ hrest ind r' hr
        have hc : Ctx (T ++ r) (T' ++ r') := .starts ((items_starts hT.text).append _) (hs.append _)
        rcases ht with htm | ⟨ht, hch⟩
        · have hr2 : Ctx (m ++ (L ++ (T ++ r))) (m ++ (L ++ (T' ++ r'))) := by
            have := hc.append (q := m ++ L) (fun p => by rw [List.append_assoc]; exact termText_slash hm)
            simpa using this
          refine ⟨bodyText n' ind ++ (m ++ (L ++ T')), (hB.bodyStarts hn ind).append _, ?_, ?_⟩
          · have := blocked_rest (B := bodyText n' ind) (m := m) (L := L) (T := T') (r := r') (fun total => ?_) (hc.term hm) (hc.text hL) hs hb
            · simpa using this
            · obtain ⟨n', h1, _⟩ := (((hB.edit n' ind hed).2 _ hr2).1.reads).2 (Or.inl (termText_nodeEnd hm _)) total
              exact ⟨n', h1⟩
          · show _ = leadOf n ++ _
            rw [← hn.leadOf]
            simp only [nodesStringify, stringify_body hf hft, htm, List.append_assoc] at e ⊢
            rw [e, h2]
        · have hp' : Parts L := by
            rcases hp with hp | ⟨n3, ns3, e3, hp⟩
            · exact absurd (hn.termOf.symm.trans ht) hp
            · obtain ⟨rfl, rfl⟩ := List.cons.inj e3
              rw [← h2]
              exact hp
          obtain ⟨w, m', x, e4, hw, hm', hx⟩ := parts_lead (hc.text hL) (hs.append _) hp'
          refine ⟨(bodyText n' ind ++ w) ++ (m' ++ (x ++ T')), ((hB.bodyStarts hn ind).append _).append _, ?_, ?_⟩
          · have := blocked_rest (B := bodyText n' ind ++ w) (m := m') (L := x) (T := T') (r := r') (fun total => ?_) hm' hx hs hb
            · simpa using this
            · obtain ⟨n', h1, _⟩ := ((hB.edit n' ind hed).1 hch false _ w hw).reads.2 (Or.inl (termText_nodeEnd hm' _)) total
              exact ⟨n', h1⟩
          · show _ = leadOf n ++ _
            rw [← hn.leadOf]
            simp only [nodesStringify, stringify_body hf hft, ht, List.append_assoc, List.nil_append] at e ⊢
            rw [e, h2, e4]
            simp
    case neg =>
      refine Or.inr fun ns' hn ind r' hr => ?_
      obtain ⟨f, hf, hft⟩ := hB.trailing
      cases hn with
      | @cons _ _ n' _ n2' _ ns2 hn hrest =>
      have hed := hn.edited htn
      have hf := hn.format.trans hf
      obtain ⟨n3, ns3, T', e3, hs, e⟩ := hT.itemsStarts hrest ind
      obtain ⟨rfl, rfl⟩ := List.cons.inj e3
      have hc : Ctx (T ++ r) (T' ++ r') := .starts ((items_starts hT.text).append _) (hs.append _)
      have hL' := hc.text hL
      have hch : termOf n = [] ∧ n.children.isSome = true := by
        rcases ht with ht | ht
        · refine absurd (Or.inl ?_) hp
          have : terminatorOf n = m := ht
          rw [this]
          exact termText_len hm
        · exact ht
      obtain ⟨w, L', e4, hw, hl⟩ := leadHead hL' rfl
      have hl' : Text .lead (T' ++ r') L' ∧ Next (L' ++ (T' ++ r')) := by
        rcases hl with rfl | ⟨m', x, rfl, hm', hx⟩ | ⟨q, rfl, hq⟩
        · exact ⟨.leadNil, Or.inl (hs.append _)⟩
        · refine absurd (Or.inr ⟨_, _, rfl, w, m', x, ?_, ?_, ?_⟩) hp
          · rw [← e4]; exact h2
          · have hne : m' ++ x ≠ [] := by simp [termText_len hm']
            exact NSpace.cut (r := T' ++ r') (by simpa using hw) hne
          · exact termText_cut hm' (by
              obtain ⟨c, q, e, _⟩ := hs
              simp [e])
        · exact ⟨hq, (hq.reads (hs.append r').solid).1 _ rfl⟩
      refine ⟨(bodyText n' ind ++ w) ++ (L' ++ T'), ((hB.bodyStarts hn ind).append _).append _, ?_, ?_⟩
      · have := blocked_here (B := bodyText n' ind ++ w) (L := L') (T := T') (r := r') (fun total => ?_) hl'.2.facts.2.2.1 hl'.1 hs
        · simpa using this
        · obtain ⟨n', h1, _⟩ := ((hB.edit n' ind hed).1 hch.2 true _ w hw).reads.2 (Or.inr ⟨rfl, hl'.2⟩) total
          exact ⟨n', h1⟩
      · have hch1 := hn.termOf.trans hch.1
        show _ = leadOf n ++ _
        rw [← hn.leadOf]
        simp only [nodesStringify, stringify_body hf hft, hch1, List.append_assoc, List.nil_append] at e ⊢
        rw [e, h2, e4]
        simp
  | empty => exact Or.inl (.mk (by simp) trivial)
  | @items r L T f span n ns hL hT h1 h2 ih =>
    rcases ih with ⟨g1, g2⟩ | ih
    · exact Or.inl (.mk g1 g2)
    · refine Or.inr fun d' hd ind r' hr => ?_
      cases hd with
      | @mk _ ns' _ _ span' hn =>
      obtain ⟨T', hs, hb, e⟩ := ih ns' hn ind r' hr
      have hc : Ctx (T ++ r) (T' ++ r') := .starts ((items_starts hT.text).append _) (hs.append _)
      have e2 : (Document.mk ns' (some f) span').stringify ind = L ++ T' := by
        simp only [Document.stringify, h2, List.nil_append, e, h1]
      rw [e2]
      refine ⟨?_, ?_⟩
      · intro total d x h
        obtain ⟨lead, s1, ns', s2, o, s3, trail, g1, g2, g3, g4, _⟩ := nodesF_inv h
        have g5 := leadingItems_of (total := total) (hc.text hL).reads (hs.append r').solid
        rw [List.append_assoc, g5] at g1
        injection g1 with _ e
        subst e
        have g6 : leadingItems (baseNode total) (T' ++ r') = .ok [] (T' ++ r') := Lead.nil total _ (hs.append r').solid
        rcases sep0_ok.mp g2 with ⟨k1, rfl, rfl⟩ | ⟨a, q, as, k1, k2, rfl⟩
        · have := nodeF_back (baseNode_back total) g6 k1
          exact absurd this (not_docEnd (hs.append r'))
        · exact hb total _ _ g6 _ _ _ _ _ _ _ _ k1 (sepMore_inv (Strict.nodeF (Strict.baseNode total)).sfx k2) g3 g4
      · intro q e5
        cases L with
        | nil =>
          obtain ⟨c, y, rfl, hst⟩ := hs
          obtain ⟨rfl, _⟩ := List.cons.inj e5
          rcases hst with h | h | h | h <;> exact absurd h (by decide)
        | cons c L =>
          obtain ⟨rfl, _⟩ := List.cons.inj e5
          have k1 := leadingItems_of (total := 0) hL.reads ((items_starts hT.text).append r).solid
          have k2 : leadingItems (baseNode 0) (Char.ofNat 0xFEFF :: (L ++ (T ++ r))) = .ok [] _ := Lead.nil 0 _ (by
            rintro _ _ ⟨⟩
            decide)
          rw [List.cons_append, k2] at k1
          injection k1 with e
          cases e

/-- A parsed document in which two nodes are not parted is printed as a text that is not
accepted, whatever is changed in it. -/
theorem lost_changed {s : Str} {d e : Document} (h : Document.parse s = .ok d) (he : ChangedDoc d e) (hd : ¬ Terminated d) (d2 : Document) :
    Document.parse e.display ≠ .ok d2 := by
  intro h2
  obtain ⟨D, d', hD, hs⟩ := parse_exact h
  have hd' : ¬ Terminated d' := by
    rcases hs with ⟨_, rfl⟩ | ⟨_, rfl⟩
    · exact hd
    · intro ht
      obtain ⟨ns, f, sp⟩ := d'
      cases ht with
      | mk h1 h2 => exact hd (.mk h1 h2)
  obtain ⟨e', he', h5⟩ : ∃ e', ChangedDoc d' e' ∧ (e.display = e'.display ∨ e.display = Char.ofNat 0xFEFF :: e'.display) := by
    rcases hs with ⟨_, rfl⟩ | ⟨_, rfl⟩
    · exact ⟨e, he, Or.inl rfl⟩
    · obtain ⟨f, hf⟩ := hD.formatDoc
      obtain ⟨ns, f0, sp⟩ := d'
      obtain rfl : f0 = some f := hf
      cases he with
      | @mk _ ns' _ _ sp' h1 =>
        exact ⟨.mk ns' (some f) sp', .mk h1, Or.inr (by simp [Document.display, Document.stringify, Document.format])⟩
  obtain ⟨h3, h4⟩ := (hD.lost.resolve_left hd') e' he' 0 [] (Or.inl rfl)
  rw [List.append_nil] at h3
  obtain ⟨_, ⟨s1, d3, e1, h6, _⟩ | ⟨h6, h7⟩⟩ := documentP_inv (tryParse_ok.mp h2)
  · rcases h5 with h5 | h5
    · rw [h5] at e1
      exact h4 _ e1
    · rw [h5] at e1
      obtain ⟨_, e1⟩ := List.cons.inj e1
      rw [← e1] at h6
      exact h3 _ _ _ h6 (Or.inl rfl)
  · rcases h5 with h5 | h5
    · rw [h5] at h7
      exact h3 _ _ _ h7 (Or.inl rfl)
    · exact h6 _ h5

/-- A parsed document in which two nodes are not parted is printed as a text that is not
accepted. -/
theorem lost_parse {s : Str} {d : Document} (h : Document.parse s = .ok d) (hd : ¬ Terminated d) (d2 : Document) :
    Document.parse d.display ≠ .ok d2 := lost_changed h (.refl d) hd d2

end

end Kdl
