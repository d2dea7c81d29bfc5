import Verif.Lemmas.Parser.SlashNode
/-
Texts of documents put one after the other, with an empty line between them.
-/

namespace Kdl
open Spec

theorem nlImp_ext {p : Str} (hp : p ≠ []) (y : Str) : NlImp (p ++ y) p := by
  intro q e
  cases p with
  | nil => exact absurd rfl hp
  | cons c p => exact ⟨p, by rw [(List.cons.inj e).1]⟩

theorem nodeStop_ext {p : Str} (hp : p ≠ []) (y : Str) (h : NodeStop p) : NodeStop (p ++ y) := by
  rcases h with h | ⟨c, q, rfl, h⟩
  · exact absurd h hp
  · refine Or.inr ⟨c, q ++ y, rfl, ?_⟩
    rcases h with h | h | h | ⟨h, q', rfl⟩
    · exact Or.inl h
    · exact Or.inr (Or.inl h)
    · exact Or.inr (Or.inr (Or.inl h))
    · exact Or.inr (Or.inr (Or.inr ⟨h, _, rfl⟩))

theorem nodeNext_ext {p : Str} (y : Str) (h : NodeNext p) : NodeNext (p ++ y) := by
  rcases h with ⟨c, q, rfl, h⟩ | ⟨q, rfl⟩
  · exact Or.inl ⟨c, _, rfl, h⟩
  · exact Or.inr ⟨_, rfl⟩

theorem termText_ext {m p : Str} (hp : p ≠ []) (y : Str) (h : TermText m p) : TermText m (p ++ y) := by
  rcases h with h | h | h
  · exact Or.inl h
  · exact Or.inr (Or.inl (h.swapH (t := []) (nlImp_ext hp y)))
  · exact Or.inr (Or.inr (h.swapH (t := []) hp (nlImp_ext hp y)))

theorem termText_ne {m x : Str} (h : TermText m x) : m ≠ [] := by
  rcases h with rfl | h | h
  · simp
  · obtain ⟨c, q, rfl, hc⟩ := h.head; simp
  · obtain ⟨q, rfl⟩ := lineComment_len h; simp

theorem starts_ne {s : Str} (h : Starts s) : s ≠ [] := by
  obtain ⟨c, q, rfl, _⟩ := h; simp

section
variable [FloatIO]

/-- A text fits in front of whatever continues what it stands in front of. -/
theorem Spec.Text.extend {c : Cat} {r t : Str} (h : Text c r t) : r ≠ [] → ∀ y, Text c (r ++ y) t := by
  induction h with
  | leaf h1 h2 h3 _ ih => intro hr y; exact .leaf h1 h2 h3 (ih hr y)
  | leafKeyword h1 h2 h3 h4 h5 => intro hr y; exact .leafKeyword h1 h2 h3 h4 h5
  | block h1 h2 h3 h4 h5 _ _ _ ih6 => intro hr y; exact .block h1 h2 h3 h4 h5 (ih6 hr y)
  | midSpace h => intro hr y; exact .midSpace (h.swapH hr (nlImp_ext hr y))
  | midEntries h1 hne h2 h3 => intro hr y; exact .midEntries h1 hne h2 (h3.swapH hr (nlImp_ext hr y))
  | midKeyword h1 hne h2 => intro hr y; exact .midKeyword h1 hne h2
  | midBlocks h1 hne h2 h3 => intro hr y; exact .midBlocks h1 hne h2 (h3.swapH hr (nlImp_ext hr y))
  | midBoth h1 hne h2 h3 hne' h4 h5 => intro hr y; exact .midBoth h1 hne h2 h3 hne' h4 (h5.swapH hr (nlImp_ext hr y))
  | tailSpace h => intro hr y; exact .tailSpace (h.swapH hr (nlImp_ext hr y))
  | tailBlocks h1 h2 h3 => intro hr y; exact .tailBlocks h1 h2 (h3.swapH hr (nlImp_ext hr y))
  | blocksOne => intro hr; exact absurd rfl hr
  | blocksCons => intro hr; exact absurd rfl hr
  | leadNil => intros; exact .leadNil
  | @leadSpace r w L hw _ ih =>
    intro hr y
    have hne : L ++ r ≠ [] := by simp [hr]
    refine .leadSpace ?_ (ih hr y)
    rw [← List.append_assoc]
    exact hw.swapH hne (nlImp_ext hne y)
  | @leadNode k r b B L d hb _ hs hL ihB ihL =>
    intro hr y
    have hne : L ++ r ≠ [] := by simp [hr]
    refine .leadNode (k := k) (d := d) hb ?_ ?_ (ihL hr y)
    · rw [← List.append_assoc]; exact ihB hne y
    · rw [← List.append_assoc]
      exact hs.imp (nodeStop_ext hne y) fun h => ⟨h.1, nodeNext_ext y h.2⟩
  | last _ ih => intro hr y; exact .last (ih hr y)
  | @lastTerm k r B m L d _ hm hL ihB ihL =>
    intro hr y
    refine .lastTerm (k := k) ?_ ?_ (ihL hr y)
    · simpa using ihB (by simp [hr]) y
    · rw [← List.append_assoc]; exact termText_ext (by simp [hr]) y hm
  | @lastSlash r q B d _ _ ihB ihL =>
    intro hr y
    refine .lastSlash ?_ (ihL hr y)
    simpa using ihB (by simp) y
  | @cons k r B m L T d ds _ hm hL hT ihB ihL ihT =>
    intro hr y
    refine .cons (k := k) ?_ ?_ ?_ (ihT hr y)
    · simpa using ihB (by simp [hr]) y
    · have := termText_ext (by simp [hr]) y hm
      simpa using this
    · simpa using ihL (by simp [hr]) y
  | empty _ ih => intro hr y; exact .empty (ih hr y)
  | @items r L T ds hL hT ihL ihT =>
    intro hr y
    refine .items ?_ (ihT hr y)
    simpa using ihL (by simp [hr]) y

omit [FloatIO] in
theorem newlineSeq_lf (Z : Str) : NewlineSeq ['\n'] Z := Or.inr ⟨'\n', rfl, by decide, fun e => absurd e (by decide)⟩

omit [FloatIO] in
theorem lspace_lf {Z w : Str} (h : LSpace Z w) : LSpace Z ('\n' :: w) := .newline (newlineSeq_lf _) h

omit [FloatIO] in
theorem newlineSeq_nn {m : Str} (h : NewlineSeq m []) : (∀ Z, NewlineSeq m Z) ∨ ∀ Z, NewlineSeq (m ++ ['\n']) Z := by
  rcases h with rfl | ⟨c, rfl, hc, _⟩
  · exact Or.inl fun Z => Or.inl rfl
  · by_cases e : c = '\r'
    · subst e; exact Or.inr fun Z => Or.inl rfl
    · exact Or.inl fun Z => Or.inr ⟨c, rfl, hc, fun h => absurd h e⟩

omit [FloatIO] in
theorem lineComment_nn {m : Str} (h : LineComment m []) : (∀ Z, LineComment m Z) ∨ ∀ Z, LineComment (m ++ ['\n']) Z := by
  obtain ⟨b, nl, rfl, hb, h | ⟨rfl, _⟩⟩ := h
  · rcases newlineSeq_nn h with h | h
    · exact Or.inl fun Z => ⟨b, nl, rfl, hb, Or.inl (h Z)⟩
    · exact Or.inr fun Z => ⟨b, nl ++ ['\n'], by simp, hb, Or.inl (h Z)⟩
  · exact Or.inr fun Z => ⟨b, ['\n'], by simp, hb, Or.inl (newlineSeq_lf Z)⟩

omit [FloatIO] in
theorem lineEnd_nn {m : Str} (h : LineEnd m []) : (∀ Z, LineEnd m Z) ∨ ∀ Z, LineEnd (m ++ ['\n']) Z := by
  rcases h with h | h | ⟨rfl, _⟩
  · exact (newlineSeq_nn h).imp (fun h Z => Or.inl (h Z)) fun h Z => Or.inl (h Z)
  · exact (lineComment_nn h).imp (fun h Z => Or.inr (Or.inl (h Z))) fun h Z => Or.inr (Or.inl (h Z))
  · exact Or.inr fun Z => Or.inl (newlineSeq_lf Z)

omit [FloatIO] in
theorem termText_nn {m : Str} (h : TermText m []) : (∀ Z, TermText m Z) ∨ ∀ Z, TermText (m ++ ['\n']) Z := by
  rcases h with h | h | h
  · exact Or.inl fun Z => Or.inl h
  · exact (newlineSeq_nn h).imp (fun h Z => Or.inr (Or.inl (h Z))) fun h Z => Or.inr (Or.inl (h Z))
  · exact (lineComment_nn h).imp (fun h Z => Or.inr (Or.inr (h Z))) fun h Z => Or.inr (Or.inr (h Z))

omit [FloatIO] in
theorem nspace_nn {w : Str} (h : NSpace [] w) : (∀ Z, NSpace ('\n' :: Z) w) ∨ ∀ Z, NSpace ('\n' :: Z) (w ++ ['\n']) := by
  induction h with
  | nil => exact Or.inl fun Z => .nil
  | space h1 _ ih => exact ih.imp (fun h Z => .space h1 (h Z)) fun h Z => .space h1 (h Z)
  | comment h1 _ ih =>
    refine ih.imp (fun h Z => .comment h1 (h Z)) fun h Z => ?_
    have := NSpace.comment h1 (h Z)
    simpa using this
  | @cont b m t hb hm h ih =>
    by_cases ht : t = []
    · subst ht
      refine (lineEnd_nn (by simpa using hm)).imp (fun h Z => .cont hb (h _) .nil) fun h Z => ?_
      have := NSpace.cont (r := '\n' :: Z) hb (h _) (t := []) .nil
      simpa using this
    · rw [List.append_nil] at hm
      refine ih.imp (fun h Z => .cont hb (hm.swapH (t := []) ht (nlImp_ext ht _)) (h Z)) fun h Z => ?_
      have := NSpace.cont hb (by rw [List.append_assoc]; exact hm.swapH (t := []) ht (nlImp_ext ht _)) (h Z)
      simpa using this

omit [FloatIO] in
theorem lspace_nn {w : Str} (h : LSpace [] w) (Z : Str) : LSpace Z (w ++ ['\n', '\n']) := by
  induction h with
  | nil => exact lspace_lf (lspace_lf .nil)
  | space h1 _ ih => exact .space h1 ih
  | comment h1 _ ih =>
    have := LSpace.comment h1 ih
    simpa using this
  | @cont b m t hb hm h ih =>
    by_cases ht : t = []
    · subst ht
      rcases lineEnd_nn (by simpa using hm) with h | h
      · have := LSpace.cont (r := Z) hb (h _) (lspace_lf (lspace_lf .nil))
        simpa using this
      · have := LSpace.cont (r := Z) hb (h _) (lspace_lf .nil)
        simpa using this
    · rw [List.append_nil] at hm
      have := LSpace.cont hb (by rw [List.append_assoc]; exact hm.swapH (t := []) ht (nlImp_ext ht _)) ih
      simpa using this
  | @newline m t hm h ih =>
    by_cases ht : t = []
    · subst ht
      rcases newlineSeq_nn (by simpa using hm) with h | h
      · have := LSpace.newline (r := Z) (h _) (lspace_lf (lspace_lf .nil))
        simpa using this
      · have := LSpace.newline (r := Z) (h _) (lspace_lf .nil)
        simpa using this
    · rw [List.append_nil] at hm
      have := LSpace.newline (by rw [List.append_assoc]; exact hm.swapH (t := []) (nlImp_ext ht _)) ih
      simpa using this
  | @line m t hm h ih =>
    by_cases ht : t = []
    · subst ht
      rcases lineComment_nn (by simpa using hm) with h | h
      · have := LSpace.line (r := Z) (h _) (lspace_lf (lspace_lf .nil))
        simpa using this
      · have := LSpace.line (r := Z) (h _) (lspace_lf .nil)
        simpa using this
    · rw [List.append_nil] at hm
      have := LSpace.line (by rw [List.append_assoc]; exact hm.swapH (t := []) ht (nlImp_ext ht _)) ih
      simpa using this

theorem mid_nn {k : Bool} {w : Str} (h : Text (.mid k) [] w) :
    (∀ Z, Text (.mid k) ('\n' :: Z) w) ∨ ∀ Z, Text (.mid k) ('\n' :: Z) (w ++ ['\n']) := by
  cases h with
  | midSpace h => exact (nspace_nn h).imp (fun h Z => .midSpace (h Z)) fun h Z => .midSpace (h Z)
  | midEntries h1 hne h2 h3 =>
    refine (nspace_nn h3).imp (fun h Z => .midEntries h1 hne h2 (h Z)) fun h Z => ?_
    simpa using Text.midEntries h1 hne h2 (h Z)
  | midKeyword h1 hne h2 => exact Or.inl fun Z => .midKeyword h1 hne h2
  | midBlocks h1 hne h2 h3 =>
    refine (nspace_nn h3).imp (fun h Z => .midBlocks h1 hne h2 (h Z)) fun h Z => ?_
    simpa using Text.midBlocks (k := k) h1 hne h2 (h Z)
  | midBoth h1 hne h2 h3 hne' h4 h5 =>
    refine (nspace_nn h5).imp (fun h Z => .midBoth h1 hne h2 h3 hne' h4 (h Z)) fun h Z => ?_
    simpa using Text.midBoth (k := k) h1 hne h2 h3 hne' h4 (h Z)

theorem node_nn {k : Bool} {d : SNode Value} {B : Str} (h : Text (.node k d) [] B) :
    (∀ Z, Text (.node k d) ('\n' :: Z) B) ∨ ∀ Z, Text (.node k d) ('\n' :: Z) (B ++ ['\n']) := by
  cases h with
  | leaf h1 h2 h3 h4 =>
    refine (mid_nn h4).imp (fun h Z => .leaf h1 h2 h3 (h Z)) fun h Z => ?_
    simpa using Text.leaf h1 h2 h3 (h Z)
  | leafKeyword h1 h2 h3 h4 h5 => exact Or.inl fun Z => .leafKeyword h1 h2 h3 h4 h5
  | block h1 h2 h3 h4 h5 h6 =>
    cases h6 with
    | tailSpace h =>
      refine (nspace_nn h).imp (fun h Z => .block h1 h2 h3 h4 h5 (.tailSpace (h Z))) fun h Z => ?_
      simpa using Text.block (k := k) h1 h2 h3 h4 h5 (.tailSpace (h Z))
    | tailBlocks t1 t2 t3 =>
      refine (nspace_nn t3).imp (fun h Z => .block h1 h2 h3 h4 h5 (.tailBlocks t1 t2 (h Z))) fun h Z => ?_
      simpa using Text.block (k := k) h1 h2 h3 h4 h5 (.tailBlocks t1 t2 (h Z))

theorem lead_lf {Z L : Str} (h : Text .lead Z L) : Text .lead Z ('\n' :: L) := .leadSpace (w := ['\n']) (lspace_lf .nil) h

theorem lead_nn {c : Cat} {r L : Str} (h : Text c r L) : c = .lead → r = [] → ∀ Z, Text .lead Z (L ++ ['\n', '\n']) := by
  induction h with
  | leadNil => intro _ _ Z; exact lead_lf (lead_lf .leadNil)
  | @leadSpace r w L hw _ ih =>
    rintro _ rfl Z
    rw [List.append_nil] at hw
    by_cases hL : L = []
    · subst hL
      have := Text.leadSpace (r := Z) (L := []) (lspace_nn hw Z) .leadNil
      simpa using this
    · have := Text.leadSpace (r := Z) (by rw [List.append_assoc]; exact hw.swapH hL (nlImp_ext hL _)) (ih rfl rfl Z)
      simpa using this
  | @leadNode k r b B L d hb hB hs hL _ ih =>
    rintro _ rfl Z
    rw [List.append_nil] at hB hs
    have hne : B ≠ [] := starts_ne (node_starts hB)
    by_cases hL : L = []
    · subst hL
      rcases node_nn hB with h | h
      · have := Text.leadNode (r := Z) hb (h _) (Or.inl (Or.inr ⟨_, _, rfl, Or.inr (Or.inr (Or.inl (by decide)))⟩))
          (lead_lf (lead_lf .leadNil))
        simpa using this
      · have := Text.leadNode (r := Z) (hb.swapH hne (nlImp_ext hne ['\n'])) (h _)
          (Or.inl (Or.inr ⟨_, _, rfl, Or.inr (Or.inr (Or.inl (by decide)))⟩)) (lead_lf .leadNil)
        simpa using this
    · have := Text.leadNode (r := Z) (k := k) (d := d) hb (by rw [List.append_assoc]; exact hB.extend hL _)
        (by rw [List.append_assoc]; exact hs.imp (nodeStop_ext hL _) fun h => ⟨h.1, nodeNext_ext _ h.2⟩) (ih rfl rfl Z)
      simpa using this
  | _ => intro e; cases e

theorem nodes_after_lead {ds : List (SNode Value)} {r t L : Str} (hL : Text .lead (t ++ r) L) (h : Text (.nodes ds) r t) :
    Text (.nodes ds) r (L ++ t) := by
  cases h with
  | empty h => exact .empty (lead_lead hL h)
  | items h h' =>
    have := Text.items (lead_lead (by simpa using hL) h) h'
    simpa using this

theorem term_nodes {k : Bool} {d : SNode Value} {ds : List (SNode Value)} {B m X : Str} (hB : Text (.node k d) (m ++ X) B)
    (hm : TermText m X) (h : Text (.nodes ds) [] X) : Text (.items (d :: ds)) [] (B ++ (m ++ X)) := by
  cases h with
  | empty h => exact .lastTerm (by simpa using hB) (by simpa using hm) h
  | items h h' => exact .cons (by simpa using hB) (by simpa using hm) h h'

theorem items_nn {c : Cat} {r T : Str} (h : Text c r T) : ∀ {ds : List (SNode Value)}, c = .items ds → r = [] →
    (∀ {ds2 : List (SNode Value)} {t : Str}, Text (.nodes ds2) [] t →
      Text (.items (ds ++ ds2)) [] (T ++ ('\n' :: '\n' :: t))) ∨ SlashItems ds T := by
  induction h with
  | @last k r B d hB _ =>
    rintro ds ⟨⟩ rfl
    refine Or.inl fun {ds2 t} h2 => ?_
    rcases node_nn hB with h | h
    · exact term_nodes (m := ['\n']) (h _) (Or.inr (Or.inl (newlineSeq_lf _))) (nodes_after_lead (L := ['\n']) (lead_lf .leadNil) h2)
    · have := term_nodes (m := ['\n']) (h _) (Or.inr (Or.inl (newlineSeq_lf _))) h2
      simpa using this
  | @lastTerm k r B m L d hB hm hL _ _ =>
    rintro ds ⟨⟩ rfl
    refine Or.inl fun {ds2 t} h2 => ?_
    rw [List.append_nil] at hB hm
    have hne := termText_ne hm
    by_cases hL' : L = []
    · subst hL'
      rw [List.append_nil] at hB
      rcases termText_nn hm with h | h
      · have := term_nodes (m := m) (X := '\n' :: '\n' :: t) (hB.extend hne _) (h _)
          (nodes_after_lead (L := ['\n', '\n']) (lead_lf (lead_lf .leadNil)) h2)
        simpa using this
      · have := term_nodes (m := m ++ ['\n']) (X := '\n' :: t) (by simpa using hB.extend hne ('\n' :: '\n' :: t)) (h _)
          (nodes_after_lead (L := ['\n']) (lead_lf .leadNil) h2)
        simpa using this
    · have := term_nodes (m := m) (X := L ++ ('\n' :: '\n' :: t))
        (by simpa using hB.extend (by simp [hne]) ('\n' :: '\n' :: t)) (termText_ext hL' _ hm)
        (by simpa using nodes_after_lead (lead_nn hL rfl rfl _) h2)
      simpa using this
  | @lastSlash r q B d hB hL _ _ =>
    rintro ds ⟨⟩ rfl
    exact Or.inr (.last (by simpa using hB) hL)
  | @cons k r B m L T d ds hB hm hL hT _ _ ih =>
    rintro ds ⟨⟩ rfl
    have hT' : Starts T := hT.reads.1
    have hne : T ≠ [] := starts_ne hT'
    rw [List.append_nil] at hB hm hL
    refine (ih rfl rfl).imp (fun ih {ds2 t} h2 => ?_) fun h => .cons hB hm hL h
    have := Text.cons (k := k) (r := []) (B := B) (m := m) (L := L) (d := d) (by simpa using hB.extend (by simp [hne]) ('\n' :: '\n' :: t))
      (by simpa using termText_ext (by simp [hne]) ('\n' :: '\n' :: t) hm) (by simpa using hL.extend hne ('\n' :: '\n' :: t)) (ih h2)
    simpa using this
  | _ => intro ds e; cases e

theorem nodes_nn {ds1 : List (SNode Value)} {t1 : Str} (h1 : Text (.nodes ds1) [] t1) :
    (∀ {ds2 : List (SNode Value)} {t2 : Str}, Text (.nodes ds2) [] t2 →
      Text (.nodes (ds1 ++ ds2)) [] (t1 ++ ('\n' :: '\n' :: t2))) ∨
    ∃ L T, t1 = L ++ T ∧ Text .lead T L ∧ SlashItems ds1 T := by
  cases h1 with
  | empty hL =>
    refine Or.inl fun h2 => ?_
    have := nodes_after_lead (lead_nn hL rfl rfl _) h2
    simpa using this
  | @items r L T ds hL hT =>
    have hT' : Starts T := hT.reads.1
    have hne : T ≠ [] := starts_ne hT'
    rw [List.append_nil] at hL
    refine (items_nn hT rfl rfl).imp (fun h {ds2 t2} h2 => ?_) fun h => ⟨L, T, rfl, hL, h⟩
    have := Text.items (by simpa using hL.extend hne ('\n' :: '\n' :: t2)) (h h2)
    simpa using this

theorem slashItems_starts {ds : List (SNode Value)} {T : Str} (h : SlashItems ds T) : Starts T := by
  cases h with
  | last h _ => exact (node_starts h).append _
  | cons h _ _ _ => exact (node_starts h).append _

theorem slashItems_contains {ds : List (SNode Value)} {T : Str} (h : SlashItems ds T) : ∃ p q, T = p ++ '/' :: '-' :: q := by
  induction h with
  | @last q B d _ _ => exact ⟨B, q, rfl⟩
  | @cons k B m L T d ds _ _ _ _ ih =>
    obtain ⟨p, q, rfl⟩ := ih
    exact ⟨B ++ (m ++ (L ++ p)), q, by simp⟩

theorem Spec.Text.items_ne {r T : Str} {ds : List (SNode Value)} (h : Text (.items ds) r T) : ds ≠ [] := by
  cases h <;> simp

/-- Further leading text may follow a slashdash that directly follows the last node. -/
theorem slashItems_lead {ds : List (SNode Value)} {T : Str} (h : SlashItems ds T) {L2 : Str} (h2 : Text .lead [] L2) :
    Text (.items ds) [] (T ++ ('\n' :: '\n' :: L2)) := by
  induction h with
  | @last q B d hB hL =>
    have := Text.lastSlash (r := []) (q := q ++ '\n' :: '\n' :: L2) (by simpa using hB.extend (by simp) ('\n' :: '\n' :: L2))
      (by simpa using lead_lead (lead_nn hL rfl rfl (L2 ++ [])) h2)
    simpa using this
  | @cons k B m L T d ds hB hm hL hT ih =>
    have hne : T ≠ [] := starts_ne (slashItems_starts hT)
    have := Text.cons (k := k) (r := []) (B := B) (m := m) (L := L) (d := d) (by simpa using hB.extend (by simp [hne]) ('\n' :: '\n' :: L2))
      (by simpa using termText_ext (by simp [hne]) ('\n' :: '\n' :: L2) hm) (by simpa using hL.extend hne ('\n' :: '\n' :: L2)) ih
    simpa using this

/-- A node may not follow a slashdash that directly follows the last node: it is left unread. -/
theorem slashItems_run {ds : List (SNode Value)} {T : Str} (h : SlashItems ds T) {L2 T2 : Str} (h2 : Text .lead T2 L2) (hs : Starts T2)
    (total : Nat) : ∀ p L, leadingItems (baseNode total) p = .ok L (T ++ ('\n' :: '\n' :: (L2 ++ T2))) →
      ∃ n ns q q1 q2 u L', nodeF (baseNode total) p = .ok n q ∧ SepMore (nodeF (baseNode total)) nodeTerminator q ns q1 ∧
        opt nodeTerminator q1 = .ok u q2 ∧ leadingItems (baseNode total) q2 = .ok L' T2 := by
  induction h with
  | @last q B d hB hL =>
    intro p L hp
    have hL' : Text .lead T2 (('/' :: '-' :: q ++ ['\n', '\n']) ++ L2) := lead_lead (lead_nn hL rfl rfl _) h2
    have hn : Next (('/' :: '-' :: q ++ ['\n', '\n']) ++ L2 ++ T2) := (hL'.reads hs.solid).1 _ rfl
    have hB' := hB.extend (by simp) ('\n' :: '\n' :: (L2 ++ T2))
    obtain ⟨n, h1, _⟩ := hB'.reads.2 (Or.inr ⟨rfl, by simpa using hn⟩) total
    obtain ⟨n', h3, _⟩ := nodeF_of h1 (by simpa using hp)
    have h5 := leadingItems_of (total := total) hL'.reads hs.solid
    have h6 := hn.facts.2.2.1
    simp only [List.append_assoc, List.cons_append, List.nil_append] at h3 h5 h6
    exact ⟨n', [], _, _, _, _, _, h3, .nil h6, opt_none h6, h5⟩
  | @cons k B m L T d ds hB hm hL hT ih =>
    intro p L' hp
    have hst := slashItems_starts hT
    have hne : T ≠ [] := starts_ne hst
    have hB' := hB.extend (by simp [hne]) ('\n' :: '\n' :: (L2 ++ T2))
    have hm' := termText_ext (by simp [hne]) ('\n' :: '\n' :: (L2 ++ T2)) hm
    have hL' := hL.extend hne ('\n' :: '\n' :: (L2 ++ T2))
    simp only [List.append_assoc] at hB' hm' hL' hp
    obtain ⟨n, h1, _⟩ := hB'.reads.2 (Or.inl (Or.inr (Or.inr ⟨_, _, termText_eq hm'⟩))) total
    obtain ⟨n', h3, _⟩ := nodeF_of h1 hp
    have h5 := leadingItems_of (total := total) hL'.reads (hst.append _).solid
    obtain ⟨n'', ns, q', q1, q2, u, L'', h6, h7, h9, h10⟩ := ih _ _ h5
    exact ⟨n', n'' :: ns, _, q1, q2, u, L'', h3, .cons (termText_eq hm') (len_lt (termText_len hm')) h6 h7, h9, h10⟩

theorem slashTail_nodes {ds : List (SNode Value)} {L T : Str} (hL : Text .lead T L) (h : SlashItems ds T) {L2 T2 : Str}
    (h2 : Text .lead T2 L2) (hs : Starts T2) (total : Nat) :
    ∃ d, nodesF total (baseNode total) (L ++ (T ++ ('\n' :: '\n' :: (L2 ++ T2)))) = .ok d T2 := by
  have hst := slashItems_starts h
  have hs' := (hst.append ('\n' :: '\n' :: (L2 ++ T2))).solid
  obtain ⟨n, ns, q, q1, q2, u, L', h1, h2, h4, h5⟩ := slashItems_run h h2 hs total _ _ (Lead.nil total _ hs')
  have hL' := hL.extend (starts_ne hst) ('\n' :: '\n' :: (L2 ++ T2))
  unfold nodesF
  have h6 : sep0 (nodeF (baseNode total)) nodeTerminator (T ++ ('\n' :: '\n' :: (L2 ++ T2))) = .ok (n :: ns) q1 := by
    have := sepMore_of (Strict.nodeF (Strict.baseNode total)).sfx h2
    rw [List.nil_append] at h1
    unfold sep0
    rw [h1]
    simp only
    rw [this]
  rw [bind_eq (leadingItems_of hL'.reads hs'), bind_here, bind_eq h6, bind_here, bind_eq h4, bind_eq h5]
  exact ⟨_, rfl⟩

/-- Nodes with something left behind them are no document. -/
theorem parse_left {t u r : Str} {d : Document} (e : (t = u ∧ ∀ q, t ≠ Char.ofNat 0xFEFF :: q) ∨ t = Char.ofNat 0xFEFF :: u)
    (h : nodesF (utf8Len t) (baseNode (utf8Len t)) u = .ok d r) (hr : r ≠ []) : Document.parse t = .err := by
  have h3 : documentP (utf8Len t) t = .cut := by
    have h5 : cutErr eof r = .cut := by
      cases r with
      | nil => exact absurd rfl hr
      | cons c q => rfl
    unfold documentP
    rcases e with ⟨rfl, hb⟩ | rfl
    · have h4 : opt (takeP bom) t = .ok none t := opt_none (takeP_back (lit_back.mpr hb))
      rw [bind_eq h4, bind_eq h]
      exact bind_cut h5
    · have h4 : opt (takeP bom) (Char.ofNat 0xFEFF :: u) = .ok (some [Char.ofNat 0xFEFF]) u :=
        opt_some (takeP_eq (a := ()) (t := [Char.ofNat 0xFEFF]) (lit_ok.mpr rfl))
      rw [bind_eq h4, bind_eq h]
      exact bind_cut h5
  unfold Document.parse tryParse
  rw [bind_cut h3]

/-! ### A document as the children of a node -/

omit [FloatIO] in
theorem lspace_n {w : Str} (h : LSpace [] w) (Z : Str) : LSpace Z (w ++ ['\n']) := by
  induction h with
  | nil => exact lspace_lf .nil
  | space h1 _ ih => exact .space h1 ih
  | comment h1 _ ih =>
    have := LSpace.comment h1 ih
    simpa using this
  | @cont b m t hb hm h ih =>
    by_cases ht : t = []
    · subst ht
      rcases lineEnd_nn (by simpa using hm) with h | h
      · have := LSpace.cont (r := Z) hb (h _) (lspace_lf .nil)
        simpa using this
      · have := LSpace.cont (r := Z) hb (h _) (t := []) .nil
        simpa using this
    · rw [List.append_nil] at hm
      have := LSpace.cont hb (by rw [List.append_assoc]; exact hm.swapH (t := []) ht (nlImp_ext ht _)) ih
      simpa using this
  | @newline m t hm h ih =>
    by_cases ht : t = []
    · subst ht
      rcases newlineSeq_nn (by simpa using hm) with h | h
      · have := LSpace.newline (r := Z) (h _) (lspace_lf .nil)
        simpa using this
      · have := LSpace.newline (r := Z) (t := []) (h _) .nil
        simpa using this
    · rw [List.append_nil] at hm
      have := LSpace.newline (by rw [List.append_assoc]; exact hm.swapH (t := []) (nlImp_ext ht _)) ih
      simpa using this
  | @line m t hm h ih =>
    by_cases ht : t = []
    · subst ht
      rcases lineComment_nn (by simpa using hm) with h | h
      · have := LSpace.line (r := Z) (h _) (lspace_lf .nil)
        simpa using this
      · have := LSpace.line (r := Z) (t := []) (h _) .nil
        simpa using this
    · rw [List.append_nil] at hm
      have := LSpace.line (by rw [List.append_assoc]; exact hm.swapH (t := []) ht (nlImp_ext ht _)) ih
      simpa using this

theorem node_lf_brace {k : Bool} {d : SNode Value} {B Z : Str} (h : Text (.node k d) ('\n' :: Z) B) (x : Str) :
    Text (.node k d) ('}' :: x) B := by
  have sp {w : Str} (h : NSpace ('\n' :: Z) w) : NSpace ('}' :: x) w := nspace_swap h (by simp) (by simp)
  cases h with
  | leaf h1 h2 h3 h4 =>
    refine .leaf h1 h2 h3 ?_
    cases h4 with
    | midSpace h => exact .midSpace (sp h)
    | midEntries m1 m2 m3 m4 => exact .midEntries m1 m2 m3 (sp m4)
    | midKeyword m1 m2 m3 => exact .midKeyword m1 m2 m3
    | midBlocks m1 m2 m3 m4 => exact .midBlocks m1 m2 m3 (sp m4)
    | midBoth m1 m2 m3 m4 m5 m6 m7 => exact .midBoth m1 m2 m3 m4 m5 m6 (sp m7)
  | leafKeyword h1 h2 h3 h4 h5 => exact .leafKeyword h1 h2 h3 h4 h5
  | block h1 h2 h3 h4 h5 h6 =>
    refine .block h1 h2 h3 h4 h5 ?_
    cases h6 with
    | tailSpace h => exact .tailSpace (sp h)
    | tailBlocks t1 t2 t3 => exact .tailBlocks t1 t2 (sp t3)

theorem lead_n {c : Cat} {r L : Str} (h : Text c r L) : c = .lead → r = [] → ∀ x, Text .lead ('}' :: x) (L ++ ['\n']) := by
  induction h with
  | leadNil => intro _ _ x; exact lead_lf .leadNil
  | @leadSpace r w L hw _ ih =>
    rintro _ rfl x
    rw [List.append_nil] at hw
    by_cases hL : L = []
    · subst hL
      have := Text.leadSpace (r := '}' :: x) (L := []) (lspace_n hw _) .leadNil
      simpa using this
    · have := Text.leadSpace (r := '}' :: x) (by rw [List.append_assoc]; exact hw.swapH hL (nlImp_ext hL _)) (ih rfl rfl x)
      simpa using this
  | @leadNode k r b B L d hb hB hs hL _ ih =>
    rintro _ rfl x
    rw [List.append_nil] at hB hs
    have hne : B ≠ [] := starts_ne (node_starts hB)
    by_cases hL : L = []
    · subst hL
      rcases node_nn hB with h | h
      · have := Text.leadNode (r := '}' :: x) hb (h _) (Or.inl (Or.inr ⟨_, _, rfl, Or.inr (Or.inr (Or.inl (by decide)))⟩))
          (lead_lf .leadNil)
        simpa using this
      · have := Text.leadNode (r := '}' :: x) (L := []) (hb.swapH hne (nlImp_ext hne ['\n'])) (node_lf_brace (h []) _)
          (Or.inl (Or.inr ⟨_, _, rfl, Or.inl rfl⟩)) .leadNil
        simpa using this
    · have := Text.leadNode (r := '}' :: x) (k := k) (d := d) hb (by rw [List.append_assoc]; exact hB.extend hL _)
        (by rw [List.append_assoc]; exact hs.imp (nodeStop_ext hL _) fun h => ⟨h.1, nodeNext_ext _ h.2⟩) (ih rfl rfl x)
      simpa using this
  | _ => intro e; cases e

theorem items_n {c : Cat} {r T : Str} (h : Text c r T) : ∀ {ds : List (SNode Value)}, c = .items ds → r = [] →
    ∀ x, Text (.items ds) ('}' :: x) (T ++ ['\n']) := by
  induction h with
  | @last k r B d hB _ =>
    rintro ds ⟨⟩ rfl x
    rcases node_nn hB with h | h
    · exact .lastTerm (m := ['\n']) (L := []) (h _) (Or.inr (Or.inl (newlineSeq_lf _))) .leadNil
    · exact .last (node_lf_brace (h []) _)
  | @lastTerm k r B m L d hB hm hL _ _ =>
    rintro ds ⟨⟩ rfl x
    rw [List.append_nil] at hB hm
    have hne := termText_ne hm
    by_cases hL' : L = []
    · subst hL'
      rw [List.append_nil] at hB
      rcases termText_nn hm with h | h
      · have := Text.lastTerm (r := '}' :: x) (m := m) (L := ['\n']) (hB.extend hne _) (h _) (lead_lf .leadNil)
        simpa using this
      · have := Text.lastTerm (r := '}' :: x) (m := m ++ ['\n']) (L := []) (by simpa using hB.extend hne ('\n' :: '}' :: x)) (h _)
          .leadNil
        simpa using this
    · have := Text.lastTerm (r := '}' :: x) (m := m) (L := L ++ ['\n'])
        (by simpa using hB.extend (by simp [hne]) ('\n' :: '}' :: x)) (by simpa using termText_ext hL' ('\n' :: '}' :: x) hm)
        (lead_n hL rfl rfl x)
      simpa using this
  | @lastSlash r q B d hB hL _ _ =>
    rintro ds ⟨⟩ rfl x
    rw [List.append_nil] at hB
    have := Text.lastSlash (r := '}' :: x) (q := q ++ ['\n']) (by simpa using hB.extend (by simp) ('\n' :: '}' :: x))
      (by simpa using lead_n hL rfl rfl x)
    simpa using this
  | @cons k r B m L T d ds hB hm hL hT _ _ ih =>
    rintro ds ⟨⟩ rfl x
    have hT' : Starts T := hT.reads.1
    have hne : T ≠ [] := starts_ne hT'
    rw [List.append_nil] at hB hm hL
    have := Text.cons (k := k) (B := B) (m := m) (L := L) (d := d) (by simpa using hB.extend (by simp [hne]) ('\n' :: '}' :: x))
      (by simpa using termText_ext (by simp [hne]) ('\n' :: '}' :: x) hm) (by simpa using hL.extend hne ('\n' :: '}' :: x)) (ih rfl rfl x)
    simpa using this
  | _ => intro ds e; cases e

theorem nodes_n {ds : List (SNode Value)} {t : Str} (h : Text (.nodes ds) [] t) (x : Str) :
    Text (.nodes ds) ('}' :: x) (t ++ ['\n']) := by
  cases h with
  | empty hL => exact .empty (lead_n hL rfl rfl x)
  | @items r L T ds hL hT =>
    have hT' : Starts T := hT.reads.1
    have hne : T ≠ [] := starts_ne hT'
    have := Text.items (by simpa using hL.extend (by simp [hne]) ('\n' :: '}' :: x)) (items_n hT rfl rfl x)
    simpa using this

end

end Kdl
