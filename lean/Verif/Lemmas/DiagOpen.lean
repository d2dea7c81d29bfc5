import Verif.Lemmas.DiagFaulty
/-
What the parser records about a block that is not closed, with mistaken words in it and in front of it.
-/

namespace Kdl
open Spec

variable [FloatIO] (total : Nat)

/-- A node with a children block that is not closed. -/
theorem open_run {tt nt T w Z : Str} {ts ns fs gs : List Fault} {d : Document}
    (h1 : FaultyTy (nt ++ (T ++ (w ++ '{' :: Z))) ts tt) (h2 : FaultyName (T ++ (w ++ '{' :: Z)) ns nt)
    (h3 : FaultyEntries (w ++ '{' :: Z) fs T) (h4 : Mid w ('{' :: Z))
    (h5 : nodesDF total (baseNodeD total) Z [] = .ok d [] (gs.map (Fault.mark Z))) (l : List Rec) :
    ∃ n d', baseNodeD total (tt ++ (nt ++ (T ++ (w ++ '{' :: Z)))) l = .ok n []
      (l ++ (ts.map (Fault.mark (tt ++ (nt ++ (T ++ (w ++ '{' :: Z))))) ++ (ns.map (Fault.mark (nt ++ (T ++ (w ++ '{' :: Z)))) ++
        (fs.map (Fault.mark (T ++ (w ++ '{' :: Z))) ++ (gs.map (Fault.mark Z) ++ unclosedRecs ('{' :: Z) Z [] d'))))) := by
  obtain ⟨hy, h7⟩ := h4
  obtain ⟨es, he⟩ := faultyEntriesD_run total h3 hy (l ++ ts.map (Fault.mark (tt ++ (nt ++ (T ++ (w ++ '{' :: Z))))) ++ ns.map (Fault.mark (nt ++ (T ++ (w ++ '{' :: Z)))))
  generalize hl1 : l ++ ts.map (Fault.mark (tt ++ (nt ++ (T ++ (w ++ '{' :: Z))))) ++ ns.map (Fault.mark (nt ++ (T ++ (w ++ '{' :: Z)))) ++ fs.map (Fault.mark (T ++ (w ++ '{' :: Z))) = l1 at he
  have hpos : 0 < nt.length := List.length_pos_iff.mpr h2.ne
  have hlen : (w ++ '{' :: Z).length < (tt ++ (nt ++ (T ++ (w ++ '{' :: Z)))).length + 1 := by
    simp only [List.length_append]; omega
  have hlen2 : Z.length < (tt ++ (nt ++ (T ++ (w ++ '{' :: Z)))).length := by
    simp only [List.length_append, List.length_cons]; omega
  generalize hk : (tt ++ (nt ++ (T ++ (w ++ '{' :: Z)))).length = k at hlen hlen2
  obtain ⟨d', hd⟩ : ∃ d', nodesDF total (baseNodeDN total k) Z l1 = .ok d' [] (l1 ++ gs.map (Fault.mark Z)) := by
    have h8 : DSame k Node.bare (baseNodeD total) (baseNodeDN total k) := fun s l hs =>
      same_baseNodeDN total total (n := s.length + 1) (Nat.le_refl _) (by omega) s l (Nat.lt_succ_self _)
    have h9 := same_nodesDF total total h8 Z [] hlen2
    rw [h5] at h9
    obtain ⟨d', e, _⟩ := h9
    refine ⟨d', ?_⟩
    rw [(DTr.nodesDF total (.baseNodeDN total id k)).after, e]
    rfl
  have key : ∃ n, baseNodeD total (tt ++ (nt ++ (T ++ (w ++ '{' :: Z)))) l = .ok n []
      (l1 ++ gs.map (Fault.mark Z) ++ unclosedRecs ('{' :: Z) Z [] d') := by
    refine node_run total (ch := some (taken (w ++ '{' :: Z) ('{' :: Z), Document.new)) (z := []) (bt := ([], [])) (q := [])
      (l2 := l1 ++ gs.map (Fault.mark Z) ++ unclosedRecs ('{' :: Z) Z [] d') h1 h2
      (faultyEntries_run total h3 hy).1.1 he ?_ rfl rfl
    rw [hk]
    refine D.opt_run ?_
    rw [D.bind_run (D.takeP_run (beforeDN_run total hlen (h7 total) l1))]
    refine D.bind_run (a := Document.new) (r := []) (l' := l1 ++ gs.map (Fault.mark Z) ++ unclosedRecs ('{' :: Z) Z [] d') ?_
    unfold nodeChildrenDF
    rw [D.here_run, D.bind_run (D.lift_run (.lit _) (lit_one _ _) l1), D.here_run, D.bind_run hd]
    rfl
  obtain ⟨n, hn⟩ := key
  exact ⟨n, d', by rw [hn, ← hl1]; simp only [List.append_assoc]⟩

/-- `Faulty.not_bom` in front of other text. -/
theorem Spec.Faulty.not_bom_in {t r : Str} {fs : List Fault} (h : Faulty .nodes r fs t) (hr : Solid r) (hb : ∀ q, r ≠ Char.ofNat 0xFEFF :: q) (q : Str) :
    t ++ r ≠ Char.ofNat 0xFEFF :: q := by
  cases h with
  | empty hL => exact lead_not_bom hL hr hb q
  | items hL hT =>
    have hs : Starts _ := hT.reads.1.append r
    rw [List.append_assoc]
    exact lead_not_bom hL hs.solid (starts_not_bom hs) q

/-- A closing brace without an opening one, with mistaken words in front of it and behind it. -/
theorem stray_faulty {t u : Str} {fs gs : List Fault} (h1 : Faulty .nodes ('}' :: u) fs t) (h2 : Faulty .nodes [] gs u) (n : Nat) :
    ∃ d, documentDN total (n + 2) (t ++ '}' :: u) [] = .ok d [] (fs.map (Fault.mark (t ++ '}' :: u)) ++
      (({ label := some "EOF", message := some "Expected end of document" }, ⟨'}' :: u, u⟩) :: gs.map (Fault.mark u))) := by
  obtain ⟨d, hd⟩ := h1.reads (Or.inr ⟨_, rfl⟩) total []
  rw [List.nil_append] at hd
  have hs : Solid ('}' :: u) := by
    rintro _ _ ⟨⟩
    decide
  have hb := noBom_run (h1.not_bom_in hs (by rintro q ⟨⟩)) []
  generalize hl : fs.map (Fault.mark (t ++ '}' :: u)) = l at hd ⊢
  obtain ⟨du, hu⟩ : ∃ du, documentDN total (n + 1) u
      (l ++ [({ label := some "EOF", message := some "Expected end of document" }, ⟨'}' :: u, u⟩)]) =
      .ok du [] (l ++ [({ label := some "EOF", message := some "Expected end of document" }, ⟨'}' :: u, u⟩)] ++ gs.map (Fault.mark u)) := by
    obtain ⟨d2, hd2⟩ := h2.reads (Or.inl rfl) total (l ++ [({ label := some "EOF", message := some "Expected end of document" }, ⟨'}' :: u, u⟩)])
    rw [List.append_nil] at hd2
    unfold documentDN documentDF
    rw [D.bind_run (noBom_run h2.not_bom _), D.bind_run hd2]
    exact ⟨_, rfl⟩
  have he : docEndD (documentDN total (n + 1)) ('}' :: u) l = .ok () []
      (l ++ [({ label := some "EOF", message := some "Expected end of document" }, ⟨'}' :: u, u⟩)] ++ gs.map (Fault.mark u)) := by
    unfold docEndD
    have : D.resume (.ctx { label := some "EOF", message := some "Expected end of document" }
        (.lift (.cutErr .eof))) (Kdl.void anyChar) ('}' :: u) l = .ok none u
          (l ++ [({ label := some "EOF", message := some "Expected end of document" }, ⟨'}' :: u, u⟩)]) := rfl
    rw [D.bind_run this]
    exact D.void_run hu
  rw [documentDN]
  unfold documentDF
  rw [D.bind_run hb, D.bind_run hd, D.bind_run he]
  exact ⟨_, by rw [List.append_assoc]; rfl⟩

theorem Spec.FrontNodes.starts {r T : Str} {fs : List Fault} (h : FrontNodes r fs T) (hr : Starts r) : Starts (T ++ r) := by
  cases h with
  | nil => exact hr
  | cons hB =>
    rw [List.append_assoc]
    exact hB.reads.1.append _

/-- Nodes in front of a node that goes to the end of the text. -/
theorem Spec.FrontNodes.reads {r T : Str} {fs : List Fault} (h : FrontNodes r fs T) (hr : Starts r) {Q : List Rec → Prop}
    (hn : ∀ l, ∃ n A, Q A ∧ baseNodeD total r l = .ok n [] (l ++ A)) (p L : Str) (l : List Rec)
    (hp : leadingItemsD (baseNodeD total) p l = .ok L (T ++ r) l) :
    ∃ n q l' A, Q A ∧ nodeDF (baseNodeD total) p l = .ok n q l' ∧
      (nodesMore (baseNodeD total) q l').seen = .ok () [] (l ++ (fs.map (Fault.mark (T ++ r)) ++ A)) := by
  induction h generalizing p L l with
  | nil =>
    obtain ⟨n, A, hA, hn⟩ := hn l
    obtain ⟨n', hn'⟩ := nodeDF_run hp hn
    have he : DocEnd [] := Or.inl rfl
    obtain ⟨e, q, ht⟩ := D.lift_run_back LTr.nodeTerminator he.terminator (l ++ A)
    refine ⟨n', _, _, A, hA, hn', ?_⟩
    rw [nodesMore_end ht]
    unfold nodesTail
    rw [D.bind_run (D.lift_run (.opt .nodeTerminator) (opt_none he.terminator) _), D.bind_run (noLeading_run he.solid _)]
    rfl
  | @cons B m L2 T fs gs hB hm hL hT ih =>
    have e : (B ++ (m ++ (L2 ++ T))) ++ r = B ++ (m ++ (L2 ++ (T ++ r))) := by simp
    rw [e] at hp ⊢
    obtain ⟨n, hn1⟩ := hB.reads.2 (Or.inr (Or.inr ⟨_, _, termText_eq hm⟩)) total l
    obtain ⟨n', hn'⟩ := nodeDF_run hp hn1
    have h5 := leadingItems_of (total := total) hL.reads (hT.starts hr).solid
    obtain ⟨n2, q2, l2, A, hA, h6, h7⟩ := ih _ _ _ (leadingItemsD_run total h5 (l ++ fs.map (Fault.mark (B ++ (m ++ (L2 ++ (T ++ r)))))))
    refine ⟨n', _, _, A, hA, hn', ?_⟩
    rw [nodesMore_cons (.baseNodeD total id) (D.lift_run LTr.nodeTerminator (termText_eq hm) _) (len_lt (termText_len hm)) h6, h7,
      List.map_append]
    have e' : B ++ (m ++ (L2 ++ (T ++ r))) = (B ++ (m ++ L2)) ++ (T ++ r) := by simp
    conv => rhs; rw [e', mark_shift, ← e']
    simp only [List.append_assoc]

/-- The same for a whole document. -/
theorem front_document {r L T : Str} {fs : List Fault} (hL : Text .lead (T ++ r) L) (h : FrontNodes r fs T) (hr : Starts r) {Q : List Rec → Prop}
    (hn : ∀ l, ∃ n A, Q A ∧ baseNodeD total r l = .ok n [] (l ++ A)) (k : Nat) :
    ∃ d A, Q A ∧ documentDN total (k + 1) (L ++ (T ++ r)) [] = .ok d [] (fs.map (Fault.mark (T ++ r)) ++ A) := by
  have hs := h.starts hr
  have h5 := leadingItems_of (total := total) hL.reads hs.solid
  obtain ⟨n, q, l', A, hA, h6, h7⟩ := h.reads total hr hn _ _ [] (noLeading_run hs.solid [])
  obtain ⟨d, hd⟩ : ∃ d, nodesDF total (baseNodeD total) (L ++ (T ++ r)) [] = .ok d [] (fs.map (Fault.mark (T ++ r)) ++ A) := by
    refine DRes.seen_ok ?_
    rw [nodesDF_seen, D.bind_run (leadingItemsD_run total h5 []), sep0_more h6, h7]
    rfl
  unfold documentDN documentDF
  rw [D.bind_run (noBom_run (lead_not_bom hL hs.solid (starts_not_bom hs)) []), D.bind_run hd]
  exact ⟨_, A, hA, rfl⟩

theorem Spec.FrontNodes.places {r T : Str} {fs : List Fault} (h : FrontNodes r fs T) : Placed fs T := by
  induction h with
  | nil => exact .nil _
  | @cons B m L T fs gs hB _ _ _ ih =>
    refine (hB.places.more _).append ?_
    have e : B ++ (m ++ (L ++ T)) = (B ++ (m ++ L)) ++ T := by simp
    rw [e]
    exact ih.shift

end Kdl
