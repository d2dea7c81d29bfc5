import Verif.Lemmas.Parser.Tidy
/-
Parsed documents are tidy.
-/

namespace Kdl
open Spec

section
variable [FloatIO]

omit [FloatIO] in
theorem nspace_head {m y w : Str} (h : NSpace (m ++ y) w) (hm : m ≠ []) (x : Str) : NSpace (m ++ x) w := by
  cases m with
  | nil => exact absurd rfl hm
  | cons c m =>
    refine h.swapH (by simp) ?_
    rintro q e
    exact ⟨m ++ y, by rw [List.cons_append, (List.cons.inj e).1]⟩

theorem mid_head {k : Bool} {m y w : Str} (h : Text (.mid k) (m ++ y) w) (hm : m ≠ []) (x : Str) : Text (.mid false) (m ++ x) w := by
  cases mid_false h with
  | midSpace h => exact .midSpace (nspace_head h hm x)
  | midEntries h1 hne h2 h3 => exact .midEntries h1 hne h2 (nspace_head h3 hm x)
  | midBlocks h1 hne h2 h3 => exact .midBlocks h1 hne h2 (nspace_head h3 hm x)
  | midBoth h1 hne h2 h3 hne' h4 h5 => exact .midBoth h1 hne h2 h3 hne' h4 (nspace_head h5 hm x)

omit [FloatIO] in
theorem termText_ne {m x : Str} (h : TermText m x) : m ≠ [] := by
  rcases h with rfl | h | h
  · simp
  · obtain ⟨c, q, rfl, _⟩ := h.head
    simp
  · obtain ⟨q, rfl⟩ := lineComment_len h
    simp

theorem end_term {k : Bool} {n : Node} {r B : Str} (h : Tree (.node k n) r B) : endOf n = termOf n := by
  obtain ⟨f, hf, ht⟩ := h.trailing
  simp [endOf, termOf, hf, ht]

/-- What is shown for each category. -/
def TidyGoal (r : Str) : TCat → Prop
  | .node k n => SealedBelow n → (Text .lead ['a'] (leadOf n) → TidyNode n) ∧
      (n.children = none → Text (.mid false) r (beforeTerm n)) ∧ (n.children.isSome = true → TailSrc (beforeTerm n))
  | .items ns tr => ∀ r', Ctx r r' → (∀ n ∈ ns, SealedBelow n) → (∀ n ∈ ns.dropLast, Sealed n) →
      (∀ n, ns.getLast? = some n → terminatorOf n ≠ [] ∨ n.children.isSome = true ∨ ∀ q, tr ≠ '/' :: '-' :: q) →
      (∀ n, ns.head? = some n → Text .lead ['a'] (leadOf n)) →
      (∀ n ∈ ns, TidyNode n) ∧ (∀ n ∈ ns.dropLast, SealedFmt n) ∧
      (∀ n, ns.getLast? = some n → SealedFmt n ∨ Follows r' tr n) ∧ Text .lead r' tr
  | .nodes d => ∀ r', Ctx r r' → SealedDoc d → TidyDoc r' d

theorem lead_a {x L : Str} (h : Text .lead x L) (hx : Starts x) : Text .lead ['a'] L :=
  h.swap (p := []) (x := x) rfl (by simp) (Or.inl ⟨hx, ⟨'a', [], rfl, Or.inl (by decide)⟩⟩)

theorem Tree.tidy {c : TCat} {r t : Str} (h : Tree c r t) : TidyGoal r c := by
  induction h with
  | @leaf k ty name es f span tt nt T w r h1 hn h2 h3 h4 h5 h6 =>
    intro hs
    refine ⟨fun hl => ?_, fun _ => ?_, by simp [Node.children]⟩
    · exact .mk h1.readable (readable_name hn h2 (Or.inl rfl)) h3.readable (by rintro _ ⟨⟩; exact hl) (by simp) (by simp)
    · simpa [beforeTerm, Node.format, h5] using mid_false h4
  | @leafKeyword ty name es e fe f span tt nt T w t r h1 hn h2 h3 hf hl hd hw hE h5 h6 =>
    intro hs
    refine ⟨fun hl => ?_, fun _ => ?_, by simp [Node.children]⟩
    · have hes : ∀ e' ∈ es ++ [e], ReadableEntry e' := by
        intro e' he'
        rcases List.mem_append.mp he' with he' | he'
        · exact h3.readable e' he'
        · rw [List.mem_singleton.mp he']
          unfold ReadableEntry
          rw [hf]
          exact ⟨_, _, hd, hw, hE.entry⟩
      exact .mk h1.readable (readable_name hn h2 (Or.inl rfl)) hes (by rintro _ ⟨⟩; exact hl) (by simp) (by simp)
    · simpa [beforeTerm, Node.format, h5] using Text.midSpace .nil
  | @block k ty name es d f span tt nt T w D v u r h1 hn h2 h3 h4 hw hd h6 hu h7 h8 ih =>
    intro hs
    refine ⟨fun hl => ?_, by simp [Node.children], fun _ => h6⟩
    refine .mk h1.readable (readable_name hn h2 (Or.inl rfl)) h3.readable (by rintro _ ⟨⟩; exact hl)
      (by rintro _ _ ⟨⟩; rw [hw]; exact h4) ?_
    rintro _ ⟨⟩
    cases hs with
    | mk hs => exact ih _ (Ctx.brace (v ++ r) []) (hs d rfl)
  | @last k r B n hB ht ih =>
    intro r' hr hs _ hl hh
    obtain ⟨i1, i2, i3⟩ := ih (hs n (by simp))
    have he : endOf n ++ [] = [] := by rw [end_term hB, ht]; rfl
    refine ⟨by simpa using i1 (hh n rfl), by simp, ?_, .leadNil⟩
    intro n0 hn0
    obtain rfl : n = n0 := by simpa using hn0
    refine Or.inr ⟨fun hc => Or.inl ⟨he, mid_false (hr.text (i2 hc))⟩, fun hc => ⟨i3 hc, Or.inl ?_⟩⟩
    rw [he]; exact .leadNil
  | @lastTerm k r B m L n hB hm hL ht ih =>
    intro r' hr hs _ hl hh
    obtain ⟨i1, i2, i3⟩ := ih (hs n (by simp))
    have hr2 : Ctx (m ++ (L ++ r)) (m ++ (L ++ r')) := by
      have := hr.append (q := m ++ L) (fun p => by rw [List.append_assoc]; exact termText_slash hm)
      simpa using this
    refine ⟨by simpa using i1 (hh n rfl), by simp, ?_, hr.text hL⟩
    intro n0 hn0
    obtain rfl : n = n0 := by simpa using hn0
    refine Or.inr ⟨fun hc => Or.inr ?_, fun hc => ⟨i3 hc, ?_⟩⟩
    · rcases ht with ht | ⟨_, hc'⟩
      · exact ⟨m, L, by rw [end_term hB, ht], hr.term hm, hr.text hL, mid_false (hr2.text (i2 hc))⟩
      · rw [hc] at hc'; cases hc'
    · rcases ht with ht | ⟨ht, _⟩
      · exact Or.inr ⟨m, L, by rw [end_term hB, ht], hr.term hm, hr.text hL⟩
      · left
        rw [end_term hB, ht]
        exact hr.text hL
  | @lastSlash r q B n hB hL ht ih =>
    intro r' hr hs _ hl hh
    obtain ⟨i1, i2, i3⟩ := ih (hs n (by simp))
    refine ⟨by simpa using i1 (hh n rfl), by simp, ?_, hr.text hL⟩
    intro n0 hn0
    obtain rfl : n = n0 := by simpa using hn0
    have hch : n.children.isSome = true := by
      rcases hl n rfl with h | h | h
      · exact absurd ht h
      · exact h
      · exact absurd rfl (h q)
    refine Or.inr ⟨fun hc => ?_, fun hc => ⟨i3 hc, Or.inl ?_⟩⟩
    · rw [hc] at hch; cases hch
    · rw [end_term hB, ht]
      exact hr.text hL
  | @cons k r B m L T tr n n2 ns hB hm hL ht hT h2 ihB ihT =>
    intro r' hr hs hd hl hh
    obtain ⟨i1, i2, i3⟩ := ihB (hs n (by simp))
    have hst := (items_starts hT.text).append r
    obtain ⟨j1, j2, j3, j4⟩ := ihT r' hr (fun m hm => hs m (List.mem_cons_of_mem _ hm))
      (fun m hm => hd m (by rw [List.dropLast_cons_cons]; exact List.mem_cons_of_mem _ hm))
      (fun m hm => hl m (by rw [List.getLast?_cons_cons]; exact hm))
      (by rintro _ ⟨⟩; rw [h2]; exact lead_a hL hst)
    have hsn : Sealed n := hd n (by simp [List.dropLast])
    have hne : endOf n ≠ [] := termText_ne (hsn [])
    have htm : termOf n = m := by
      rcases ht with ht | ⟨ht, _⟩
      · exact ht
      · exact absurd ((end_term hB).trans ht) hne
    have hsf : SealedFmt n := by
      refine ⟨hsn, fun hc x => ?_, i3⟩
      have := i2 hc
      rw [end_term hB, htm]
      exact mid_head this (by rw [← htm, ← end_term hB]; exact hne) x
    refine ⟨?_, ?_, fun m hm => j3 m (by rw [List.getLast?_cons_cons] at hm; exact hm), j4⟩
    · intro m hm
      rcases List.mem_cons.mp hm with rfl | hm
      · exact i1 (hh _ rfl)
      · exact j1 m hm
    · intro m hm
      rw [List.dropLast_cons_cons] at hm
      rcases List.mem_cons.mp hm with rfl | hm
      · exact hsf
      · exact j2 m hm
  | @empty r L f span hL h1 h2 =>
    intro r' hr _
    refine .mk (by simp) (by simp) (by simp) ?_ ?_ (by simp)
    · simp only [docTrail, h2]; exact .leadNil
    · simpa [docTrail, docLead, h1, h2] using hr.text hL
  | @items r L T f span n ns hL hT h1 h2 ih =>
    intro r' hr hs
    cases hs with
    | mk s1 s2 s3 =>
    obtain ⟨j1, j2, j3, j4⟩ := ih r' hr s1 s2 (fun m hm => (s3 m hm).imp id fun h => h.imp id fun h => h f rfl)
      (by rintro _ ⟨⟩; rw [h1]; exact lead_a hL ((items_starts hT.text).append r))
    refine .mk j1 j2 (fun m hm => (j3 m hm).imp id fun h => ⟨rfl, h⟩) j4 ?_ (fun _ => Or.inl h2)
    simpa [docLead, docTrail, h2] using j4

end

end Kdl
