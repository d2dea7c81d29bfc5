import Verif.Props.Exact
import Verif.Lemmas.Parser.SlashNode
import Verif.Lemmas.Parser.Touch
/-
C32 at every place of every accepted document.
-/

namespace Kdl
open Spec

section
variable [FloatIO]

/-- What an accepted text looks like around a node, and what may be done with it. -/
theorem gives_place {s : Str} {ds : List (SNode Value)} (h : Gives s ds) {path : List Nat} {d : SNode Value}
    (hd : nodeAt path ds = some d) : ∃ p B q k, s = p ++ (B ++ q) ∧ Text (.node k d) q B ∧
      (∀ b, LSpace B b → (∀ y, q ≠ ';' :: y) → Gives (p ++ ("/-".toList ++ (b ++ (B ++ q)))) (dropAt path ds)) ∧
      (∀ B' d' k', Text (.node k' d') q B' → ((k = true → k' = true) ∨ ∀ y, q ≠ '/' :: '-' :: y) →
        Gives (p ++ (B' ++ q)) (setAt path d' ds)) ∧
      (∀ b y, LSpace B b → q = ';' :: y → ∀ x, Document.parse (p ++ ("/-".toList ++ (b ++ (B ++ q)))) ≠ .ok x) ∧
      ∀ B', Starts B' → BlockedItems (B' ++ q) → ∀ x, Document.parse (p ++ (B' ++ q)) ≠ .ok x := by
  obtain ⟨t, hs, ht⟩ := C50_document.mp h
  obtain ⟨p, B, q, k, rfl, hB, h1, h2, h3, h4⟩ := placeAt path ds [] t d ht (Or.inl rfl) hd
  rw [List.append_nil] at hB
  simp only [List.append_nil] at h3 h4
  have hbom : ∀ y, p ++ (B ++ q) ≠ Char.ofNat 0xFEFF :: y := by
    have ht' := ht.reads
    obtain ⟨d', h, _⟩ := ht' (Or.inl rfl) 0
    rw [List.append_nil] at h
    exact nodesF_not_bom h
  rcases hs with rfl | rfl
  · refine ⟨p, B, q, k, rfl, hB, fun b hb hq => C50_document.mpr ⟨_, Or.inl rfl, h1 b hb hq⟩,
      fun B' d' k' hB' hk => C50_document.mpr ⟨_, Or.inl rfl, h2 B' d' k' (by simpa using hB') hk⟩, fun b y hb hq x hx => ?_,
      fun B' hs hf x hx => ?_⟩
    obtain ⟨_, ⟨s1, d3, e, h6, _⟩ | ⟨h6, h7⟩⟩ := documentP_inv (tryParse_ok.mp hx)
    · cases p with
      | nil => cases e
      | cons c p => exact hbom (p ++ (B ++ q)) (by rw [(List.cons.inj e).1]; rfl)
    · exact h3 b y hb hq _ _ _ h7 (Or.inl rfl)
    obtain ⟨_, ⟨s1, d3, e, h6, _⟩ | ⟨h6, h7⟩⟩ := documentP_inv (tryParse_ok.mp hx)
    · cases p with
      | nil =>
        obtain ⟨c, y, rfl, hc⟩ := hs
        exact absurd ((List.cons.inj e).1 ▸ hc) (by unfold Start; decide)
      | cons c p => exact hbom (p ++ (B ++ q)) (by rw [(List.cons.inj e).1]; rfl)
    · exact h4 B' hs hf _ _ _ h7 (Or.inl rfl)
  · refine ⟨Char.ofNat 0xFEFF :: p, B, q, k, rfl, hB, fun b hb hq => C50_document.mpr ⟨_, Or.inr rfl, h1 b hb hq⟩,
      fun B' d' k' hB' hk => C50_document.mpr ⟨_, Or.inr rfl, h2 B' d' k' (by simpa using hB') hk⟩, fun b y hb hq x hx => ?_,
      fun B' hs hf x hx => ?_⟩
    obtain ⟨_, ⟨s1, d3, e, h6, _⟩ | ⟨h6, h7⟩⟩ := documentP_inv (tryParse_ok.mp hx)
    · obtain ⟨_, rfl⟩ := List.cons.inj e
      exact h3 b y hb hq _ _ _ h6 (Or.inl rfl)
    · exact h6 _ rfl
    obtain ⟨_, ⟨s1, d3, e, h6, _⟩ | ⟨h6, h7⟩⟩ := documentP_inv (tryParse_ok.mp hx)
    · obtain ⟨_, rfl⟩ := List.cons.inj e
      exact h4 B' hs hf _ _ _ h6 (Or.inl rfl)
    · exact h6 _ rfl

/-- **C32**, partial: in every accepted document, every node at every depth has a text `B` such
that a slashdash (and any line space) put in front of `B` removes that node with its entries and
children, and nothing else. Missing: nodes that end with a semicolon, for which it fails
(`C32_violated`). -/
theorem C32_any_node_partial {s : Str} {ds : List (SNode Value)} (h : Gives s ds) {path : List Nat} {d : SNode Value}
    (hd : nodeAt path ds = some d) : ∃ p B q k, s = p ++ (B ++ q) ∧ Text (.node k d) q B ∧
      ∀ b, LSpace B b → (∀ y, q ≠ ';' :: y) → Gives (p ++ ("/-".toList ++ (b ++ (B ++ q)))) (dropAt path ds) := by
  obtain ⟨p, B, q, k, e, hB, h1, _⟩ := gives_place h hd
  exact ⟨p, B, q, k, e, hB, h1⟩

/-- **C32**: in every accepted document, every node at every depth has a text `B` such that a
slashdash (and any line space) put in front of `B` removes that node and nothing else if no
semicolon stands directly behind `B`, and makes a text that is not accepted if one does. -/
theorem C32_any_node_exact {s : Str} {ds : List (SNode Value)} (h : Gives s ds) {path : List Nat} {d : SNode Value}
    (hd : nodeAt path ds = some d) : ∃ p B q k, s = p ++ (B ++ q) ∧ Text (.node k d) q B ∧
      ∀ b, LSpace B b → ((¬ ∃ y, q = ';' :: y) → Gives (p ++ ("/-".toList ++ (b ++ (B ++ q)))) (dropAt path ds)) ∧
        ((∃ y, q = ';' :: y) → Document.parse (p ++ ("/-".toList ++ (b ++ (B ++ q)))) = .err) := by
  obtain ⟨p, B, q, k, e, hB, h1, _, h3, _⟩ := gives_place h hd
  refine ⟨p, B, q, k, e, hB, fun b hb => ⟨fun hq => h1 b hb fun y e => hq ⟨y, e⟩, fun ⟨y, hq⟩ => ?_⟩⟩
  exact (C06_ok_or_err _).1.resolve_left fun ⟨x, hx⟩ => h3 b y hb hq x hx

/-- **C32**: in every accepted document, every entry of every node has a text `E` such that a
slashdash (and any line space) put in front of `E` removes that entry and nothing else. -/
theorem C32_any_entry {s : Str} {ds : List (SNode Value)} (h : Gives s ds) {path : List Nat} {ty : Option Str} {nm : Str}
    {es : List (SEntry Value)} {cs : Option (List (SNode Value))} (hd : nodeAt path ds = some (.mk ty nm es cs)) {j : Nat}
    {e : SEntry Value} (he : es[j]? = some e) : ∃ p E q, s = p ++ (E ++ q) ∧ EntryText e E ∧
      ∀ b, LSpace E b → Gives (p ++ ("/-".toList ++ (b ++ (E ++ q)))) (setAt path (.mk ty nm (es.eraseIdx j) cs) ds) := by
  obtain ⟨p, B, q, k, rfl, hB, _, h2, _⟩ := gives_place h hd
  obtain ⟨p', E, q', rfl, hE, h3⟩ := node_slash_entry hB he
  refine ⟨p ++ p', E, q' ++ q, by simp, hE, fun b hb => ?_⟩
  have := h2 _ _ _ (h3 b hb) (Or.inl id)
  simpa using this

/-- **C32**: in every accepted document, a slashdash (and any line space) put in front of the
children block of any node removes the block and nothing else, if there is space in front of the
block and no slashdashed block directly behind it. Otherwise, the text with the slashdash is not
accepted. -/
theorem C32_any_block_exact {s : Str} {ds : List (SNode Value)} (h : Gives s ds) {path : List Nat} {ty : Option Str} {nm : Str}
    {es : List (SEntry Value)} {cs : List (SNode Value)} (hd : nodeAt path ds = some (.mk ty nm es (some cs))) :
    ∃ p u D q, s = p ++ (u ++ ('{' :: (D ++ '}' :: q))) ∧ (∀ x, NSpace ('{' :: x) u) ∧ (∀ x, Text (.nodes cs) ('}' :: x) D) ∧
      ∀ b, LSpace ['{'] b →
        (u ≠ [] → (¬ ∃ l y, q = "/-".toList ++ (l ++ '{' :: y) ∧ LSpace ['{'] l) →
          Gives (p ++ (u ++ ("/-".toList ++ (b ++ ('{' :: (D ++ '}' :: q)))))) (setAt path (.mk ty nm es none) ds)) ∧
        (u = [] ∨ (∃ l y, q = "/-".toList ++ (l ++ '{' :: y) ∧ LSpace ['{'] l) →
          Document.parse (p ++ (u ++ ("/-".toList ++ (b ++ ('{' :: (D ++ '}' :: q)))))) = .err) := by
  obtain ⟨p, B, q, k, rfl, hB, _, h2, _, h4⟩ := gives_place h hd
  obtain ⟨p', u, D, q', rfl, hu, hD, hs, h3⟩ := node_slash_block hB
  refine ⟨p ++ p', u, D, q' ++ q, by simp, hu, hD, fun b hb => ⟨fun hne hq => ?_, fun hq => ?_⟩⟩
  · have := h2 _ _ _ ((h3 b hb).1 hne hq) (Or.inl id)
    simpa using this
  · refine (C06_ok_or_err _).1.resolve_left fun ⟨x, hx⟩ => ?_
    have hb' := (h3 b hb).2 hq
    refine h4 (p' ++ (u ++ '/' :: '-' :: (b ++ ('{' :: (D ++ '}' :: q'))))) (hs.append _) (by simpa using hb') x ?_
    simpa using hx

/-- C32 is violated by a block without space in front of it: `n{}` is a document, but not
with a slashdash after the name; nor may two slashdashed blocks touch. -/
theorem C32_violated_block : Gives "n{}".toList [.mk none ['n'] [] (some [])] ∧ Document.parse "n/-{}".toList = .err ∧
    Gives "n {}/-{}".toList [.mk none ['n'] [] (some [])] ∧ Document.parse "n /-{}/-{}".toList = .err :=
  ⟨gives_iff.mpr (by krfl), by krfl, gives_iff.mpr (by krfl), by krfl⟩

/-- A block with a slashdashed node directly behind it may be slashdashed; one directly behind a
keyword may not. -/
example : Gives "a { b; }/-c".toList [.mk none ['a'] [] (some [.mk none ['b'] [] none])] ∧
    Gives "a /-{ b; }/-c".toList [.mk none ['a'] [] none] ∧
    Gives "a #true{ b; }".toList [.mk none ['a'] [⟨none, none, .bool true⟩] (some [.mk none ['b'] [] none])] ∧
    Document.parse "a #true/-{ b; }".toList = .err :=
  ⟨gives_iff.mpr (by krfl), gives_iff.mpr (by krfl), gives_iff.mpr (by krfl), by krfl⟩

/-- The places of a document, and what is left when they are removed. -/
example : let ds := [.mk none ['a'] [] (some [.mk none ['b'] [⟨none, none, .null⟩] none, .mk none ['c'] [] none])]
    Gives "a { b #null\n c\n}".toList ds ∧ nodeAt [0, 0] ds = some (.mk none ['b'] [⟨none, none, .null⟩] none) ∧
    dropAt [0, 0] ds = [.mk none ['a'] [] (some [.mk none ['c'] [] none])] ∧
    Gives "a { /-b #null\n c\n}".toList (dropAt [0, 0] ds) := by
  refine ⟨gives_iff.mpr (by krfl), by simp [nodeAt], by simp [dropAt], ?_⟩
  rw [show dropAt [0, 0] [SNode.mk none ['a'] [] (some [SNode.mk none ['b'] [⟨none, none, Value.null⟩] none,
    SNode.mk none ['c'] [] none])] = [.mk none ['a'] [] (some [.mk none ['c'] [] none])] by simp [dropAt]]
  exact gives_iff.mpr (by krfl)

end

end Kdl
