import Verif.Props.SlashAny
import Verif.Lemmas.Parser.Touch
import Verif.Lemmas.Parser.Doubled
/-
C60: what stands at one place of a document does not matter for the others.
-/

namespace Kdl
open Spec

section
variable [FloatIO]

/-- **C60**, partial: in every accepted document, every node at every depth has a text `B`, and
putting the text of any other node there gives the document with that node, and no other
change. Missing: a node directly followed by a slashdash, for which the new text has to be one
that may stand there (`C60_violated`). -/
theorem C60_node_partial {s : Str} {ds : List (SNode Value)} (h : Gives s ds) {path : List Nat} {d : SNode Value}
    (hd : nodeAt path ds = some d) : ∃ p B q k, s = p ++ (B ++ q) ∧ Text (.node k d) q B ∧
      ∀ B' d' k', Text (.node k' d') q B' → (∀ y, q ≠ '/' :: '-' :: y) → Gives (p ++ (B' ++ q)) (setAt path d' ds) := by
  obtain ⟨p, B, q, k, e, hB, _, h1, _⟩ := gives_place h hd
  exact ⟨p, B, q, k, e, hB, fun B' d' k' hB' hq => h1 B' d' k' hB' (Or.inr hq)⟩

/-- **C60**: in every accepted document every node has a text `B`, and the text `B'` of any other node
put there gives the document with that node, and no other change, if no slashdash directly follows
or `B'` is the text of a node that a further one may follow directly. If a slashdash directly
follows, every other `B'` makes a text that is not accepted, unless it ends with space, where the
slashdash becomes part of the new node (`C60_violated_space`). -/
theorem C60_node_exact {s : Str} {ds : List (SNode Value)} (h : Gives s ds) {path : List Nat} {d : SNode Value}
    (hd : nodeAt path ds = some d) : ∃ p B q k, s = p ++ (B ++ q) ∧ Text (.node k d) q B ∧
      ∀ B' d' k', Text (.node k' d') q B' →
        ((¬ ∃ y, q = '/' :: '-' :: y) ∨ Text (.node true d') q B' → Gives (p ++ (B' ++ q)) (setAt path d' ds)) ∧
        ((∃ y, q = '/' :: '-' :: y) → ¬ Text (.node true d') q B' → (¬ ∃ B0 w, B' = B0 ++ w ∧ w ≠ [] ∧ NSpace q w) →
          Document.parse (p ++ (B' ++ q)) = .err) := by
  obtain ⟨p, B, q, k, e, hB, _, h1, _, h4⟩ := gives_place h hd
  refine ⟨p, B, q, k, e, hB, fun B' d' k' hB' => ⟨?_, ?_⟩⟩
  · rintro (hq | hq)
    · exact h1 B' d' k' hB' (Or.inr fun y e => hq ⟨y, e⟩)
    · exact h1 B' d' true hq (Or.inl fun _ => rfl)
  · rintro ⟨y, rfl⟩ hn hw
    rcases node_touch hB' with h | h | ⟨hs, hf⟩
    · exact absurd h hn
    · exact absurd h hw
    · exact (C06_ok_or_err _).1.resolve_left fun ⟨x, hx⟩ => h4 B' hs (blockedItems_first hf) x hx

/-- **C60**: the same for the name of a node, without exceptions. -/
theorem C60_name {s : Str} {ds : List (SNode Value)} (h : Gives s ds) {path : List Nat} {ty : Option Str} {nm : Str}
    {es : List (SEntry Value)} {cs : Option (List (SNode Value))} (hd : nodeAt path ds = some (.mk ty nm es cs)) :
    ∃ p N q, s = p ++ (N ++ q) ∧ StrText N nm ∧
      ∀ N' nm', StrText N' nm' → Gives (p ++ (N' ++ q)) (setAt path (.mk ty nm' es cs) ds) := by
  obtain ⟨p, B, q, k, rfl, hB, _, h1, _⟩ := gives_place h hd
  obtain ⟨p', N, q', rfl, hN, h2⟩ := node_set_name hB
  refine ⟨p ++ p', N, q' ++ q, by simp, hN, fun N' nm' hN' => ?_⟩
  have := h1 _ _ _ (h2 N' nm' hN') (Or.inl id)
  simpa using this

/-- **C60**, partial: the same for the entries of a node. Missing: an entry directly followed by a
slashdash (`C60_violated`). -/
theorem C60_entry_partial {s : Str} {ds : List (SNode Value)} (h : Gives s ds) {path : List Nat} {ty : Option Str} {nm : Str}
    {es : List (SEntry Value)} {cs : Option (List (SNode Value))} (hd : nodeAt path ds = some (.mk ty nm es cs)) {j : Nat}
    {e : SEntry Value} (he : es[j]? = some e) : ∃ p E q, s = p ++ (E ++ q) ∧ EntryText e E ∧
      ∀ E' e', EntryText e' E' → (∀ y, q ≠ '/' :: '-' :: y) →
        Gives (p ++ (E' ++ q)) (setAt path (.mk ty nm (es.set j e') cs) ds) := by
  obtain ⟨p, B, q, k, rfl, hB, _, h1, _⟩ := gives_place h hd
  obtain ⟨p', E, q', rfl, hE, h2⟩ := node_set_entry hB he
  refine ⟨p ++ p', E, q' ++ q, by simp, hE, fun E' e' hE' hq => ?_⟩
  obtain ⟨⟨k', hk, hc⟩, _⟩ := h2 E' e' hE'
  have := h1 _ _ _ hk (hc.imp (fun h => by rw [h]; exact id) fun h => by rw [h] at hq; exact hq)
  simpa using this

/-- **C60**: in every accepted document every entry has a text `E`, such that putting the text of
any other entry there gives the document with that entry, and no other change, if no slashdash
directly follows or the new text ends with a keyword; and makes a text that is not accepted if a
slashdash directly follows and the new text does not end with a keyword. -/
theorem C60_entry_exact {s : Str} {ds : List (SNode Value)} (h : Gives s ds) {path : List Nat} {ty : Option Str} {nm : Str}
    {es : List (SEntry Value)} {cs : Option (List (SNode Value))} (hd : nodeAt path ds = some (.mk ty nm es cs)) {j : Nat}
    {e : SEntry Value} (he : es[j]? = some e) : ∃ p E q, s = p ++ (E ++ q) ∧ EntryText e E ∧
      ∀ E' e', EntryText e' E' →
        ((¬ ∃ y, q = '/' :: '-' :: y) ∨ EntryEnd true e' E' →
          Gives (p ++ (E' ++ q)) (setAt path (.mk ty nm (es.set j e') cs) ds)) ∧
        ((∃ y, q = '/' :: '-' :: y) → ¬ EntryEnd true e' E' → Document.parse (p ++ (E' ++ q)) = .err) := by
  obtain ⟨p, B, q, k, rfl, hB, _, h1, _, h4⟩ := gives_place h hd
  obtain ⟨p', E, q', rfl, hE, h2⟩ := node_set_entry hB he
  refine ⟨p ++ p', E, q' ++ q, by simp, hE, fun E' e' hE' => ?_⟩
  obtain ⟨⟨k', hk, hc⟩, hkw, tt, nt, A, u, as, rfl, t1, t2, t3, t4⟩ := h2 E' e' hE'
  refine ⟨?_, ?_⟩
  · rintro (hq | hq)
    · have := h1 _ _ _ hk (hc.imp (fun h => by rw [h]; exact id) fun h => by rw [h] at hq; exact fun y e => hq ⟨y, e⟩)
      simpa using this
    · have := h1 _ _ _ (hkw hq) (Or.inl id)
      simpa using this
  · rintro ⟨y, hy⟩ hn
    refine (C06_ok_or_err _).1.resolve_left fun ⟨x, hx⟩ => ?_
    refine h4 (tt ++ (nt ++ (A ++ (u ++ (E' ++ q'))))) ?_ (blockedItems_first fun total m z => ?_) x (by simpa using hx)
    · exact (TyTok.text t1 t2.ne).starts ((StrTok.text t2).starts.append _)
    · have := baseNode_touch t1 t2 t3 t4 hE' hn y total m z
      rw [← hy] at this
      simpa using this

/-- C60 is violated by an entry directly followed by a slashdash: there the parser accepts a
keyword, but no other value. -/
theorem C60_violated : Gives "a #true/-b".toList [.mk none ['a'] [⟨none, none, .bool true⟩] none] ∧
    Gives "a #null/-b".toList [.mk none ['a'] [⟨none, none, .null⟩] none] ∧
    EntryText ⟨none, none, .string ['x']⟩ "\"x\"".toList ∧ Document.parse "a \"x\"/-b".toList = .err := by
  refine ⟨gives_iff.mpr (by krfl), gives_iff.mpr (by krfl), ?_, by krfl⟩
  exact EntryEnd.arg (k := false) (tt := []) .none (show ValText _ _ from .str (.quoted (t := ['x'])
    (.plain (by decide) (by decide) (by decide) (by decide) .nil)))

/-- C60 is violated by a node that ends with space, put in front of a slashdash: what was a
slashdashed node becomes a slashdashed entry, and a value of it an entry of the node. -/
theorem C60_violated_space : Gives "a #true/-x y".toList [.mk none ['a'] [⟨none, none, .bool true⟩] none] ∧
    Text (.node false (.mk none ['b'] [] none)) "/-x y".toList "b ".toList ∧
    Gives "b /-x y".toList [.mk none ['b'] [⟨none, none, .string ['y']⟩] none] := by
  refine ⟨gives_iff.mpr (by krfl), ?_, gives_iff.mpr (by krfl)⟩
  exact .leaf (tt := []) (nt := ['b']) (T := []) (w := [' ']) .none (bare_letter (by decide) (by decide)) .nil
    (.midSpace (.space (by decide) .nil))

/-- Changing a value deep inside a document. -/
example : let ds := [.mk none ['a'] [] (some [.mk none ['b'] [⟨none, none, .null⟩] none, .mk none ['c'] [] none])]
    Gives "a { b #null // one\n c\n}".toList ds ∧ nodeAt [0, 0] ds = some (.mk none ['b'] [⟨none, none, .null⟩] none) ∧
    Gives "a { b k=\"x\" // one\n c\n}".toList (setAt [0, 0] (.mk none ['b'] [⟨none, some ['k'], .string ['x']⟩] none) ds) := by
  refine ⟨gives_iff.mpr (by krfl), by simp [nodeAt], ?_⟩
  rw [show setAt [0, 0] (SNode.mk none ['b'] [⟨none, some ['k'], .string ['x']⟩] none)
    [SNode.mk none ['a'] [] (some [SNode.mk none ['b'] [⟨none, none, Value.null⟩] none,
    SNode.mk none ['c'] [] none])] = [.mk none ['a'] [] (some [.mk none ['b'] [⟨none, some ['k'], .string ['x']⟩] none,
      .mk none ['c'] [] none])] by simp [setAt]]
  exact gives_iff.mpr (by krfl)

end

end Kdl
