import Verif.Lemmas.Parser.ExactDoc
import Verif.Spec.Edit
/-
The printed text of an edited document is in the grammar.
-/

namespace Kdl
open Spec

section
variable [FloatIO]

/-! ### What follows a text -/

omit [FloatIO] in
/-- What follows a text, before and after an edit. -/
def Ctx (r r' : Str) : Prop := r = r' ∨ ∃ p x x', r = p ++ x ∧ r' = p ++ x' ∧ p ≠ ['/'] ∧ SameHead x x'

theorem Ctx.text {c : Cat} {r r' t : Str} (h : Ctx r r') (ht : Text c r t) : Text c r' t := by
  rcases h with rfl | ⟨p, x, x', rfl, rfl, hp, hx⟩
  · exact ht
  · exact ht.swap rfl hp hx

omit [FloatIO] in
theorem Ctx.term {r r' m t : Str} (h : Ctx r r') (hm : TermText m (t ++ r)) : TermText m (t ++ r') := by
  rcases h with rfl | ⟨p, x, x', rfl, rfl, hp, hx⟩
  · exact hm
  · exact hx.term hm

omit [FloatIO] in
theorem Ctx.nspace {r r' w t : Str} (h : Ctx r r') (hm : NSpace (t ++ r) w) : NSpace (t ++ r') w := by
  rcases h with rfl | ⟨p, x, x', rfl, rfl, hp, hx⟩
  · exact hm
  · rw [← List.append_assoc] at hm ⊢
    exact hm.swapH (hx.ne _) (hx.nl _)

omit [FloatIO] in
theorem Ctx.append {r r' q : Str} (h : Ctx r r') (hq : ∀ p, q ++ p ≠ ['/']) : Ctx (q ++ r) (q ++ r') := by
  rcases h with rfl | ⟨p, x, x', rfl, rfl, hp, hx⟩
  · exact Or.inl rfl
  · exact Or.inr ⟨q ++ p, x, x', by simp, by simp, hq p, hx⟩

omit [FloatIO] in
theorem Ctx.starts {x x' : Str} (h : Starts x) (h' : Starts x') : Ctx x x' :=
  Or.inr ⟨[], x, x', rfl, rfl, by simp, Or.inl ⟨h, h'⟩⟩

omit [FloatIO] in
theorem Ctx.brace (x x' : Str) : Ctx ('}' :: x) ('}' :: x') :=
  Or.inr ⟨[], _, _, rfl, rfl, by simp, SameHead.brace (Or.inr rfl) _ _⟩

/-! ### The text in front of a node, after a node that has lost its terminator -/

/-- How the text `L` may continue a node. -/
def LeadHead (r L : Str) : Prop := ∃ w L', L = w ++ L' ∧ NSpace (L' ++ r) w ∧ (L' = [] ∨
  (∃ m x, L' = m ++ x ∧ TermText m (x ++ r) ∧ Text .lead r x) ∨ ∃ q, L' = '/' :: '-' :: q ∧ Text .lead r L')

theorem leadHead_space {r L w : Str} (hw : LSpace (L ++ r) w) (hL : Text .lead r L) (h : LeadHead r L) : LeadHead r (w ++ L) := by
  induction hw with
  | nil => exact h
  | space h1 _ ih =>
    obtain ⟨w, L', e, hw, hl⟩ := ih
    exact ⟨_ :: w, L', by rw [List.cons_append, e]; rfl, .space h1 hw, hl⟩
  | @comment a t h1 _ ih =>
    obtain ⟨w, L', e, hw, hl⟩ := ih
    exact ⟨'/' :: '*' :: (a ++ '*' :: '/' :: w), L', by simp [e], .comment h1 hw, hl⟩
  | @cont b m t hb hm _ ih =>
    obtain ⟨w, L', e, hw, hl⟩ := ih
    refine ⟨'\\' :: (b ++ (m ++ w)), L', by simp [e], .cont hb ?_ hw, hl⟩
    have e2 : t ++ (L ++ r) = w ++ (L' ++ r) := by rw [← List.append_assoc, e, List.append_assoc]
    rw [← e2]
    exact hm
  | @newline m t hm ht _ =>
    exact ⟨[], m ++ t ++ L, rfl, .nil, Or.inr (Or.inl ⟨m, t ++ L, by simp, Or.inr (Or.inl (by simpa using hm)), .leadSpace ht hL⟩)⟩
  | @line m t hm ht _ =>
    exact ⟨[], m ++ t ++ L, rfl, .nil, Or.inr (Or.inl ⟨m, t ++ L, by simp, Or.inr (Or.inr (by simpa using hm)), .leadSpace ht hL⟩)⟩

theorem leadHead {c : Cat} {r L : Str} (h : Text c r L) : c = .lead → LeadHead r L := by
  induction h with
  | leadNil => intro _; exact ⟨[], [], rfl, .nil, Or.inl rfl⟩
  | leadSpace hw hL ih => intro _; exact leadHead_space hw hL (ih rfl)
  | leadNode hb hB hs hL _ _ =>
    intro _
    exact ⟨[], _, rfl, .nil, Or.inr (Or.inr ⟨_, rfl, .leadNode hb hB hs hL⟩)⟩
  | _ => intro e; cases e

omit [FloatIO] in
theorem termText_first {m x : Str} (h : TermText m x) :
    ∃ c q, m = c :: q ∧ (c = ';' ∨ Newline c ∨ (c = '/' ∧ ∃ q', q = '/' :: q')) := by
  rcases h with rfl | h | h
  · exact ⟨_, _, rfl, Or.inl rfl⟩
  · obtain ⟨c, q, rfl, hc⟩ := h.head
    exact ⟨c, q, rfl, Or.inr (Or.inl hc)⟩
  · obtain ⟨q, rfl⟩ := lineComment_len h
    exact ⟨_, _, rfl, Or.inr (Or.inr ⟨rfl, q, rfl⟩)⟩

omit [FloatIO] in
theorem termText_nodeEnd {m x : Str} (h : TermText m x) (y : Str) : NodeEnd (m ++ y) := by
  obtain ⟨c, q, rfl, hc⟩ := termText_first h
  refine nodeStop_end (Or.inr ⟨c, q ++ y, rfl, Or.inr ?_⟩)
  rcases hc with h1 | h1 | ⟨h1, q', rfl⟩
  · exact Or.inl h1
  · exact Or.inr (Or.inl h1)
  · exact Or.inr (Or.inr ⟨h1, q' ++ y, rfl⟩)

omit [FloatIO] in
theorem termText_notSlash {m x : Str} (h : TermText m x) (y q : Str) : m ++ y ≠ '/' :: '-' :: q := by
  obtain ⟨c, p, rfl, hc⟩ := termText_first h
  intro e
  obtain ⟨e1, e2⟩ := List.cons.inj e
  subst e1
  rcases hc with h1 | h1 | ⟨_, q', rfl⟩
  · exact absurd h1 (by decide)
  · exact absurd h1 (by decide)
  · exact absurd (List.cons.inj e2).1 (by decide)

/-- The terminator in the text in front of a node. -/
theorem parts_lead {r L : Str} (hL : Text .lead r L) (hr : Starts r) (h : Parts L) :
    ∃ w m x, L = w ++ (m ++ x) ∧ NSpace (m ++ (x ++ r)) w ∧ TermText m (x ++ r) ∧ Text .lead r x := by
  obtain ⟨w, m, x, e, hw, hm⟩ := h
  obtain ⟨w', L', e', hw', hl⟩ := leadHead hL rfl
  have hne : m ++ x ≠ [] := by simp [termText_len hm]
  have h1 : nodeSpace0 (L ++ r) = .ok () (m ++ (x ++ r)) := by
    rw [e]
    have h2 : NSpace (m ++ (x ++ r)) w := by
      refine hw.swapH hne ?_
      obtain ⟨c, q, rfl, _⟩ := termText_first hm
      intro q' e
      have := (List.cons.inj e).1
      subst this
      exact ⟨_, rfl⟩
    have := h2.space0 (termText_nodeEnd hm _).wall.nodeSpace
    unfold Space0 at this
    simpa using this
  have h2 : nodeSpace0 (L ++ r) = .ok () (L' ++ r) := by
    rw [e', List.append_assoc]
    refine hw'.space0 ?_
    rcases hl with rfl | ⟨m', x', rfl, hm', _⟩ | ⟨q, rfl, _⟩
    · exact hr.solid.nodeSpace
    · rw [List.append_assoc]; exact (termText_nodeEnd hm' _).wall.nodeSpace
    · exact Slash.nodeSpace ⟨_, rfl⟩
  rw [h1] at h2
  have e2 : m ++ (x ++ r) = L' ++ r := by injection h2
  rw [← List.append_assoc] at e2
  have e3 := List.append_cancel_right e2
  rcases hl with rfl | ⟨m', x', rfl, hm', hx'⟩ | ⟨q, rfl, _⟩
  · exact absurd e3 hne
  · exact ⟨w', m', x', e', by simpa using hw', hm', hx'⟩
  · exact absurd e3 (termText_notSlash hm _ _)

/-! ### Entries -/

theorem ReadableEntry.texts : ∀ {es : List Entry}, (∀ e ∈ es, ReadableEntry e) → EntriesText (es.map (semEntry id)) (displayEntries es)
  | [], _ => .nil
  | e :: es, h => by
    have h1 := h e (by simp)
    have h2 := ReadableEntry.texts (es := es) fun e he => h e (by simp [he])
    unfold ReadableEntry at h1
    cases hf : e.format with
    | none =>
      rw [hf] at h1
      have : displayEntries (e :: es) = [' '] ++ (e.display ++ displayEntries es) := by simp [displayEntries, hf]
      rw [this]
      exact .cons (.space (.space (by decide) .nil) (by simp)) h1 h2
    | some f =>
      rw [hf] at h1
      obtain ⟨w, t, h3, h4, h5⟩ := h1
      have : displayEntries (e :: es) = w ++ (t ++ displayEntries es) := by simp [displayEntries, hf, h3]
      rw [this]
      exact .cons h4 h5 h2

theorem EntsSrc.readable {es : List Entry} {T : Str} (h : EntsSrc es T) : ∀ e ∈ es, ReadableEntry e := by
  induction h with
  | nil => simp
  | cons hf hl hd hw ht _ ih =>
    intro e he
    rcases List.mem_cons.mp he with rfl | he
    · unfold ReadableEntry
      rw [hf]
      exact ⟨_, _, hd, hw, ht⟩
    · exact ih e he

/-! ### The printed text -/

/-- What is recorded in front of the terminator of a node. -/
def beforeTerm (n : Node) : Str := match n.format with | some f => f.beforeTerminator | none => []

/-- What is printed for a node, without the text around it. -/
def bodyText (n : Node) (ind : Nat) : Str := n.coreText ind ++ beforeTerm n

theorem stringify_body {n : Node} {f : NodeFmt} (hf : n.format = some f) (ht : f.trailing = []) (ind : Nat) :
    n.stringify ind = leadOf n ++ (bodyText n ind ++ termOf n) := by
  rw [Node.stringify_split]
  simp [Node.leadText, Node.afterText, bodyText, leadOf, termOf, beforeTerm, hf, ht]

theorem TySrc.readable {nt : Str} {ty : Option Ident} {f : NodeFmt} {tt : Str} (h : TySrc nt ty f tt) : ∀ i ∈ ty, ReadableIdent i := by
  rcases h with ⟨rfl, rfl⟩ | ⟨i, it, rfl, hr, h1, _⟩
  · simp
  · rintro j ⟨⟩
    unfold ReadableIdent Ident.display
    rw [hr]
    exact h1

theorem tyText_text {nt : Str} {ty : Option Ident} (h : ∀ i ∈ ty, ReadableIdent i) : TyText nt (ty.map Ident.value) (tyText ty) := by
  cases ty with
  | none => exact .none
  | some i =>
    have := TyText.some (nx := nt) (h i rfl) .nil .nil .nil
    simpa [tyText] using this

theorem sdEnd_false {k : Bool} {S : Str} (h : SdEnd k S) : SdEnd false S := by
  induction h with
  | one hb hE => exact .one hb hE.entry
  | nest hb hS hw hne hE _ => exact .nest hb hS hw hne hE.entry
  | cons hb hE hw hne _ ih => exact .cons hb hE hw hne ih
  | nestCons hb hS hv hne' hE hw hne _ _ ih => exact .nestCons hb hS hv hne' hE hw hne ih

theorem mid_false {k : Bool} {r w : Str} (h : Text (.mid k) r w) : Text (.mid false) r w := by
  cases k with
  | false => exact h
  | true =>
    cases h with
    | midKeyword h1 hne h2 =>
      have := Text.midEntries (r := r) h1 hne (sdEnd_false h2) .nil
      simpa using this
    | midBlocks h1 hne h2 h3 => exact .midBlocks h1 hne h2 h3
    | midBoth h1 hne h2 h3 hne' h4 h5 => exact .midBoth h1 hne h2 h3 hne' h4 h5

theorem node_starts {k : Bool} {d : SNode Value} {r t : Str} (h : Text (.node k d) r t) : Starts t := by
  cases h with
  | leaf h1 h2 => exact (TyTok.text h1 h2.ne).starts ((StrTok.text h2).starts.append _)
  | leafKeyword h1 h2 => exact (TyTok.text h1 h2.ne).starts ((StrTok.text h2).starts.append _)
  | block h1 h2 => exact (TyTok.text h1 h2.ne).starts ((StrTok.text h2).starts.append _)

theorem items_starts {ds : List (SNode Value)} {r t : Str} (h : Text (.items ds) r t) : Starts t := by
  cases h with
  | last hB => exact node_starts hB
  | lastTerm hB => exact (node_starts hB).append _
  | lastSlash hB => exact (node_starts hB).append _
  | cons hB => exact (node_starts hB).append _

theorem displayEntries_append (es es' : List Entry) : displayEntries (es ++ es') = displayEntries es ++ displayEntries es' := by
  induction es with
  | nil => rfl
  | cons e es ih => simp [displayEntries, ih]

/-! ### Edited nodes -/

theorem Spec.Edited.format {n n' : Node} (h : Edited n n') : n'.format = n.format := by
  cases h; rfl

theorem Spec.Edited.leadOf {n n' : Node} (h : Edited n n') : leadOf n' = leadOf n := by
  unfold Kdl.leadOf; rw [h.format]

theorem Spec.Edited.termOf {n n' : Node} (h : Edited n n') : termOf n' = termOf n := by
  unfold Kdl.termOf; rw [h.format]

theorem Spec.EditedDoc.formatEq {d d' : Document} (h : EditedDoc d d') : d'.format = d.format := by
  cases h; rfl

theorem Tree.formatDoc {d : Document} {r B : Str} (h : Tree (.nodes d) r B) : ∃ f, d.format = some f := by
  cases h with
  | empty => exact ⟨_, rfl⟩
  | items => exact ⟨_, rfl⟩

theorem Tree.trailing {k : Bool} {n : Node} {r B : Str} (h : Tree (.node k n) r B) :
    ∃ f, n.format = some f ∧ f.trailing = [] := by
  cases h with
  | leaf _ _ _ _ _ _ h => exact ⟨_, rfl, h⟩
  | leafKeyword _ _ _ _ _ _ _ _ _ _ h => exact ⟨_, rfl, h⟩
  | block _ _ _ _ _ _ _ _ _ _ h => exact ⟨_, rfl, h⟩

/-- What is shown for each category: the printed text of an edited node, list of nodes
or document is in the grammar. -/
def EditGoal (r : Str) : TCat → Prop
  | .node k n => ∀ n' ind, Edited n n' →
      (n.children.isSome = true → ∀ k' r' w, NSpace r' w → Text (.node k' (semNode id n')) r' (bodyText n' ind ++ w)) ∧
      (∀ r', Ctx r r' → Text (.node false (semNode id n')) r' (bodyText n' ind) ∧
        (n'.entries = n.entries → Text (.node k (semNode id n')) r' (bodyText n' ind)))
  | .items ns tr => ∀ ns' ind r', EditedNodes tr ns ns' → Ctx r r' →
      ∃ T, Text (.items (semNodes id ns')) r' T ∧
        nodesStringify ns' ind ++ tr = (match ns with | n :: _ => leadOf n | [] => []) ++ T
  | .nodes d => ∀ d' ind r', EditedDoc d d' → Ctx r r' → Text (.nodes (semDoc id d')) r' (d'.stringify ind)

theorem readable_ty {ty ty' : Option Ident} (h : ∀ i ∈ ty, ReadableIdent i) (ht : ty' = ty ∨ ∀ i ∈ ty', ReadableIdent i) :
    ∀ i ∈ ty', ReadableIdent i := by
  rcases ht with rfl | ht
  · exact h
  · exact ht

theorem readable_name {name name' : Ident} {nt : Str} (h : name.repr = some nt) (h2 : StrText nt name.value)
    (hn : name' = name ∨ ReadableIdent name') : StrText name'.display name'.value := by
  rcases hn with rfl | hn
  · unfold Ident.display; rw [h]; exact h2
  · exact hn

theorem readable_entries {es es' : List Entry} (h : ∀ e ∈ es, ReadableEntry e) (he : es' = es ∨ ∀ e ∈ es', ReadableEntry e) :
    EntriesText (es'.map (semEntry id)) (displayEntries es') := by
  rcases he with rfl | he
  · exact ReadableEntry.texts h
  · exact ReadableEntry.texts he

/-- The last node, after which its terminator is not printed. -/
theorem last_lead {n : Node} {r L : Str} {B : Str} (hB : ∀ k r' w, NSpace r' w → Text (.node k (semNode id n)) r' (B ++ w))
    (hL : Text .lead r L) : Text (.items (semNodes id [n])) r (B ++ L) := by
  obtain ⟨w, L', rfl, hw, hl⟩ := leadHead hL rfl
  rw [← List.append_assoc]
  simp only [semNodes]
  rcases hl with rfl | ⟨m, x, rfl, hm, hx⟩ | ⟨q, rfl, hq⟩
  · rw [List.append_nil]
    exact .last (hB false _ w (by simpa using hw))
  · exact .lastTerm (hB false _ w (by simpa using hw)) hm hx
  · exact .lastSlash (hB true _ w hw) hq

theorem Tree.edit {c : TCat} {r t : Str} (h : Tree c r t) : EditGoal r c := by
  induction h with
  | @leaf k ty name es f span tt nt T w r h1 hn h2 h3 h4 h5 h6 =>
    intro n' ind he
    cases he with
    | @mk _ ty' _ name' _ es' _ _ _ _ sp' ht hn' he hc =>
    cases hc
    refine ⟨by simp [Node.children], fun r' hr => ?_⟩
    have a1 := tyText_text (nt := name'.display) (readable_ty h1.readable ht)
    have a2 := readable_name hn h2 hn'
    have a3 := readable_entries h3.readable he
    have eb : bodyText (.mk ty' name' es' none (some f) sp') ind =
        tyText ty' ++ (name'.display ++ (displayEntries es' ++ w)) := by
      simp [bodyText, Node.coreText, beforeTerm, Node.ty, Node.name, Node.entries, Node.children, Node.format,
        childrenStringify, h5]
    rw [eb]
    exact ⟨.leaf a1 a2 a3 (mid_false (hr.text h4)), fun _ => .leaf a1 a2 a3 (hr.text h4)⟩
  | @leafKeyword ty name es e fe f span tt nt T w t r h1 hn h2 h3 hf hl hd hw hE h5 h6 =>
    intro n' ind he
    cases he with
    | @mk _ ty' _ name' _ es' _ _ _ _ sp' ht hn' he hc =>
    cases hc
    refine ⟨by simp [Node.children], fun r' hr => ?_⟩
    have a1 := tyText_text (nt := name'.display) (readable_ty h1.readable ht)
    have a2 := readable_name hn h2 hn'
    have hes : ∀ e' ∈ es ++ [e], ReadableEntry e' := by
      intro e' he'
      rcases List.mem_append.mp he' with he' | he'
      · exact h3.readable e' he'
      · rw [List.mem_singleton.mp he']
        unfold ReadableEntry
        rw [hf]
        exact ⟨_, _, hd, hw, hE.entry⟩
    have a3 := readable_entries hes he
    have eb : bodyText (.mk ty' name' es' none (some f) sp') ind =
        tyText ty' ++ (name'.display ++ (displayEntries es' ++ [])) := by
      simp [bodyText, Node.coreText, beforeTerm, Node.ty, Node.name, Node.entries, Node.children, Node.format,
        childrenStringify, h5]
    rw [eb]
    refine ⟨.leaf a1 a2 a3 (.midSpace .nil), fun e2 => ?_⟩
    simp only [Node.entries] at e2
    subst e2
    have a4 := ReadableEntry.texts h3.readable
    have e4 : displayEntries (es ++ [e]) = displayEntries es ++ (w ++ t) := by
      rw [displayEntries_append]; simp [displayEntries, hf, hd]
    rw [List.append_nil, e4]
    simp only [semNode, List.map_append, List.map_cons, List.map_nil]
    exact .leafKeyword a1 a2 a4 hw hE
  | @block k ty name es d f span tt nt T w D v u r h1 hn h2 h3 h4 hw hd h6 hu h7 h8 ih =>
    intro n' ind he
    cases he with
    | @mk _ ty' _ name' _ es' _ _ _ _ sp' ht hn' he hc =>
    cases hc with
    | @some _ d' hdd =>
    have a1 := tyText_text (nt := name'.display) (readable_ty h1.readable ht)
    have a2 := readable_name hn h2 hn'
    have a3 := readable_entries h3.readable he
    obtain ⟨fd, hfd⟩ := hd.formatDoc
    have hfd' : d'.format = Option.some fd := hdd.formatEq.trans hfd
    have eb : bodyText (.mk ty' name' es' (some d') (some f) sp') ind =
        tyText ty' ++ (name'.display ++ (displayEntries es' ++ (w ++ '{' :: (d'.stringify (ind + 4) ++ '}' :: f.beforeTerminator)))) := by
      simp [bodyText, Node.coreText, beforeTerm, Node.ty, Node.name, Node.entries, Node.children, Node.format,
        childrenStringify, hfd', beforeText, hw]
    have key : ∀ k' r' w', NSpace r' w' → Text (.node k' (semNode id (.mk ty' name' es' (some d') (some f) sp'))) r'
        (bodyText (.mk ty' name' es' (some d') (some f) sp') ind ++ w') := by
      intro k' r' w' hw'
      rw [eb]
      have := Text.block (k := k') a1 a2 a3 h4 (fun x => ih d' (ind + 4) _ hdd (Ctx.brace (v ++ r) x)) (h6.tail hw')
      simpa [semNode, semOptDoc] using this
    refine ⟨fun _ => key, fun r' _ => ?_⟩
    have key' : ∀ k', Text (.node k' (semNode id (.mk ty' name' es' (some d') (some f) sp'))) r'
        (bodyText (.mk ty' name' es' (some d') (some f) sp') ind) := fun k' => by
      simpa using key k' r' [] .nil
    exact ⟨key' _, fun _ => key' _⟩
  | @last k r B n hB ht ih =>
    intro ns' ind r' he hr
    cases he with
    | @last _ _ n' he hg =>
      obtain ⟨f, hf, hft⟩ := hB.trailing
      refine ⟨bodyText n' ind, .last ((ih n' ind he).2 r' hr).1, ?_⟩
      simp [nodesStringify, stringify_body (he.format.trans hf) hft, he.leadOf, he.termOf, ht]
    | cons he ht' hr' =>
      cases hr'
      rcases ht' with ht' | ⟨_, _, e, _⟩
      · exact absurd ht ht'
      · cases e
  | @lastTerm k r B m L n hB hm hL ht ih =>
    intro ns' ind r' he hr
    have key : ∀ n', Edited n n' → ns' = [n'] → ∃ T, Text (.items (semNodes id ns')) r' T ∧
        nodesStringify ns' ind ++ L = leadOf n ++ T := by
      rintro n' he1 rfl
      clear he
      have he := he1
      obtain ⟨f, hf, hft⟩ := hB.trailing
      refine ⟨bodyText n' ind ++ (termOf n ++ L), ?_, ?_⟩
      · rcases ht with ht | ⟨ht, hc⟩
        · rw [ht]
          have hr2 : Ctx (m ++ (L ++ r)) (m ++ (L ++ r')) := by
            have := hr.append (q := m ++ L) (fun p => by rw [List.append_assoc]; exact termText_slash hm)
            simpa using this
          exact .lastTerm ((ih n' ind he).2 _ hr2).1 (hr.term hm) (hr.text hL)
        · rw [ht]
          exact last_lead ((ih n' ind he).1 hc) (hr.text hL)
      · simp [nodesStringify, stringify_body (he.format.trans hf) hft, he.leadOf, he.termOf]
    cases he with
    | @last _ _ n' he hg => exact key n' he rfl
    | cons he ht' hr' => cases hr'; exact key _ he rfl
  | @lastSlash r q B n hB hL ht ih =>
    intro ns' ind r' he hr
    cases he with
    | @last _ _ n' he hg =>
      obtain ⟨f, hf, hft⟩ := hB.trailing
      refine ⟨bodyText n' ind ++ '/' :: '-' :: q, ?_, ?_⟩
      · refine .lastSlash ?_ (hr.text hL)
        have hr2 : Ctx ('/' :: '-' :: q ++ r) ('/' :: '-' :: q ++ r') := hr.append (by simp)
        rcases hg with hg | hg | hg | hg
        · exact ((ih n' ind he).2 _ hr2).2 hg
        · simpa using (ih n' ind he).1 hg true _ [] .nil
        · exact absurd ht hg
        · exact absurd rfl (hg q)
      · simp [nodesStringify, stringify_body (he.format.trans hf) hft, he.leadOf, he.termOf, ht]
    | cons he ht' hr' =>
      cases hr'
      rcases ht' with ht' | ⟨_, _, e, _⟩
      · exact absurd ht ht'
      · cases e
  | @cons k r B m L T tr n n2 ns hB hm hL ht hT h2 ihB ihT =>
    intro ns' ind r' he hr
    cases he with
    | @cons _ _ n' _ ns' he ht' hr' =>
      obtain ⟨f, hf, hft⟩ := hB.trailing
      obtain ⟨T', hT', e⟩ := ihT ns' ind r' hr' hr
      have hc : Ctx (T ++ r) (T' ++ r') := .starts ((items_starts hT.text).append _) ((items_starts hT').append _)
      rcases ht with htm | ⟨ht, hch⟩
      case inr =>
        have hp : Parts L := by
          rcases ht' with ht' | ⟨n3, ns3, e3, hp⟩
          · exact absurd ht ht'
          · obtain ⟨rfl, rfl⟩ := List.cons.inj e3
            rw [← h2]
            exact hp
        obtain ⟨w, m', x, e4, hw, hm', hx⟩ := parts_lead (hc.text hL) ((items_starts hT').append _) hp
        refine ⟨(bodyText n' ind ++ w) ++ (m' ++ (x ++ T')), ?_, ?_⟩
        · exact .cons ((ihB n' ind he).1 hch false _ w hw) hm' hx hT'
        · simp only [nodesStringify, stringify_body (he.format.trans hf) hft, he.leadOf, he.termOf, ht, List.append_assoc, e, h2, e4,
            List.nil_append]
      have hr2 : Ctx (m ++ (L ++ (T ++ r))) (m ++ (L ++ (T' ++ r'))) := by
        have := hc.append (q := m ++ L) (fun p => by rw [List.append_assoc]; exact termText_slash hm)
        simpa using this
      refine ⟨bodyText n' ind ++ (m ++ (L ++ T')), ?_, ?_⟩
      · exact .cons ((ihB n' ind he).2 _ hr2).1 (hc.term hm) (hc.text hL) hT'
      · simp only [nodesStringify, stringify_body (he.format.trans hf) hft, he.leadOf, he.termOf, htm, List.append_assoc, e, h2]
  | @empty r L f span hL h1 h2 =>
    intro d' ind r' he hr
    cases he with
    | mk h =>
    cases h
    simp only [Document.stringify, nodesStringify, h1, h2, semDoc, List.append_nil]
    exact .empty (hr.text hL)
  | @items r L T f span n ns hL hT h1 h2 ih =>
    intro d' ind r' he hr
    cases he with
    | @mk _ ns' _ _ sp' h =>
    obtain ⟨T', hT', e⟩ := ih ns' ind r' h hr
    have hc : Ctx (T ++ r) (T' ++ r') := .starts ((items_starts hT.text).append _) ((items_starts hT').append _)
    have e2 : (Document.mk ns' (some f) sp').stringify ind = L ++ T' := by
      simp only [Document.stringify, h2, List.nil_append, e, h1]
    rw [e2]
    exact .items (hc.text hL) hT'

/-! ### Documents that are left as they are -/

mutual
theorem Spec.TerminatedNode.edited : ∀ {n : Node}, TerminatedNode n → Edited n n
  | .mk _ _ _ none _ _, _ => .mk (Or.inl rfl) (Or.inl rfl) (Or.inl rfl) .none
  | .mk _ _ _ (some d) _ _, h => .mk (Or.inl rfl) (Or.inl rfl) (Or.inl rfl) (.some (Spec.Terminated.edited (d := d) (by cases h with | mk h => exact h d rfl)))
theorem Spec.Terminated.edited : ∀ {d : Document}, Terminated d → EditedDoc d d
  | .mk ns _ _, h => .mk (terminatedNodes ns (by cases h with | mk h1 h2 => exact h1) (by cases h with | mk h1 h2 => exact h2))
theorem terminatedNodes {tr : Str} : ∀ (ns : List Node), (∀ n ∈ ns, TerminatedNode n) → PartedAll ns → EditedNodes tr ns ns
  | [], _, _ => .nil
  | [n], h, _ => .last (Spec.TerminatedNode.edited (h n (by simp))) (Or.inl rfl)
  | n :: n2 :: ns, h, ht => .cons (Spec.TerminatedNode.edited (h n (by simp))) ht.1
      (terminatedNodes (n2 :: ns) (fun m hm => h m (by simp [hm])) ht.2)
end

end

end Kdl
