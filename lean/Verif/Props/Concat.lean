import Verif.Props.Exact
import Verif.Lemmas.Parser.Concat
/-
C61 and C62: documents put one after the other, and inside each other.
-/

namespace Kdl
open Spec

section
variable [FloatIO]

/-- **C61**, partial: two accepted texts, with an empty line between them, are an accepted text,
and its nodes are those of the first text followed by those of the second. Missing: a first text
whose last node is directly followed by a slashdash, for which it fails (`C61_violated`) if the
second text has nodes (`C61_exact`); and a second text with a byte order mark, which may only stand
at the beginning (`C61_violated_mark`). -/
theorem C61_partial {t1 t2 : Str} {ds1 ds2 : List (SNode Value)} (h1 : Gives t1 ds1) (h2 : Gives t2 ds2)
    (hs : ¬ SlashTail ds1 t1 ∨ ds2 = []) (hm : ∀ q, t2 ≠ Char.ofNat 0xFEFF :: q) :
    Gives (t1 ++ ("\n\n".toList ++ t2)) (ds1 ++ ds2) := by
  obtain ⟨u1, e1, h1⟩ := C50_document.mp h1
  obtain ⟨u2, e2, h2⟩ := C50_document.mp h2
  obtain rfl : t2 = u2 := e2.resolve_right (hm u2)
  have h : Text (.nodes (ds1 ++ ds2)) [] (u1 ++ ('\n' :: '\n' :: t2)) := by
    rcases nodes_nn h1 with h | ⟨L, T, rfl, hL, hT⟩
    · exact h h2
    · rcases hs with hs | rfl
      · exact absurd ⟨L, T, e1, hL, hT⟩ hs
      · cases h2 with
        | empty h2 =>
          have := Text.items (by simpa using hL.extend (starts_ne (slashItems_starts hT)) ('\n' :: '\n' :: t2)) (slashItems_lead hT h2)
          simpa using this
        | items _ h3 => exact absurd rfl h3.items_ne
  rcases e1 with rfl | rfl
  · exact C50_document.mpr ⟨_, Or.inl rfl, h⟩
  · exact C50_document.mpr ⟨_, Or.inr rfl, h⟩

/-- C61 is decided: the two texts are the text of their nodes exactly if the last node of the first
is not directly followed by a slashdash, or the second text has no nodes; otherwise they are
rejected. -/
theorem C61_exact {t1 t2 : Str} {ds1 ds2 : List (SNode Value)} (h1 : Gives t1 ds1) (h2 : Gives t2 ds2)
    (hm : ∀ q, t2 ≠ Char.ofNat 0xFEFF :: q) :
    (Gives (t1 ++ ("\n\n".toList ++ t2)) (ds1 ++ ds2) ↔ ¬ SlashTail ds1 t1 ∨ ds2 = []) ∧
      (SlashTail ds1 t1 → ds2 ≠ [] → Document.parse (t1 ++ ("\n\n".toList ++ t2)) = .err) := by
  have hr : SlashTail ds1 t1 → ds2 ≠ [] → Document.parse (t1 ++ ("\n\n".toList ++ t2)) = .err := by
    rintro ⟨L, T, e1, hL, hT⟩ hne
    obtain ⟨u2, e2, h2⟩ := C50_document.mp h2
    obtain rfl : t2 = u2 := e2.resolve_right (hm u2)
    cases h2 with
    | empty h2 => exact absurd rfl hne
    | @items _ L2 T2 _ hL2 hT2 =>
      have hs2 : Starts T2 := hT2.reads.1
      have hb (total : Nat) := slashTail_nodes hL hT (by simpa using hL2) hs2 total
      obtain ⟨d, hd⟩ := hb (utf8Len (t1 ++ ("\n\n".toList ++ (L2 ++ T2))))
      refine parse_left (u := L ++ (T ++ ('\n' :: '\n' :: (L2 ++ T2)))) (r := T2) ?_ hd (starts_ne hs2)
      rcases e1 with rfl | rfl
      · refine Or.inl ⟨by simp, fun q e => ?_⟩
        obtain ⟨d, hd⟩ := hb 0
        exact nodesF_not_bom hd q (by simpa using e)
      · exact Or.inr (by simp)
  refine ⟨⟨fun h => ?_, fun hs => C61_partial h1 h2 hs hm⟩, hr⟩
  refine Classical.or_iff_not_imp_right.mpr fun hne hs => ?_
  obtain ⟨d, h, _⟩ := h
  rw [hr hs hne] at h
  cases h

/-- **C61** for texts without slashdashes in the first of them. -/
theorem C61_no_slashdash {t1 t2 : Str} {ds1 ds2 : List (SNode Value)} (h1 : Gives t1 ds1) (h2 : Gives t2 ds2)
    (hs : ¬ Contains t1 "/-".toList) (hm : ∀ q, t2 ≠ Char.ofNat 0xFEFF :: q) :
    Gives (t1 ++ ("\n\n".toList ++ t2)) (ds1 ++ ds2) := by
  refine C61_partial h1 h2 (Or.inl ?_) hm
  rintro ⟨L, T, e, _, hT⟩
  obtain ⟨p, q, rfl⟩ := slashItems_contains hT
  rcases e with rfl | rfl
  · exact hs ⟨L ++ p, q, by simp⟩
  · exact hs ⟨Char.ofNat 0xFEFF :: (L ++ p), q, by simp⟩

/-- C61 is violated after a node that is directly followed by a slashdash: the text is accepted,
but nothing may follow it. -/
theorem C61_violated : Gives "a #true/-b".toList [.mk none ['a'] [⟨none, none, .bool true⟩] none] ∧
    Gives ['c'] [.mk none ['c'] [] none] ∧ Document.parse ("a #true/-b".toList ++ ("\n\n".toList ++ ['c'])) = .err :=
  ⟨gives_iff.mpr (by krfl), gives_iff.mpr (by krfl), by krfl⟩

/-- That text has such a tail, and further text without nodes may follow it. -/
example : SlashTail [.mk none ['a'] [⟨none, none, .bool true⟩] none] "a #true/-b".toList ∧
    Gives ("a #true/-b".toList ++ ("\n\n".toList ++ "// c".toList)) [.mk none ['a'] [⟨none, none, .bool true⟩] none] := by
  have h1 : Gives "a #true/-b".toList [.mk none ['a'] [⟨none, none, .bool true⟩] none] := gives_iff.mpr (by krfl)
  have h2 : Gives "// c".toList [] := gives_iff.mpr (by krfl)
  refine ⟨?_, C61_partial h1 h2 (Or.inr rfl) (by simp)⟩
  have hc : Gives ['c'] [.mk none ['c'] [] none] := gives_iff.mpr (by krfl)
  refine Classical.byContradiction fun hs => ?_
  obtain ⟨d, h, _⟩ := C61_partial h1 hc (Or.inl hs) (by simp)
  rw [C61_violated.2.2] at h
  cases h

/-- A slashdashed node that is followed by another one is no such tail: there is a newline in front of it. -/
example : ¬ SlashTail [.mk none ['a'] [⟨none, none, .bool true⟩] none] "a #true\n/-a #true/-b".toList := by
  have h1 : Gives "a #true\n/-a #true/-b".toList [.mk none ['a'] [⟨none, none, .bool true⟩] none] := gives_iff.mpr (by krfl)
  have hc : Gives ['c'] [.mk none ['c'] [] none] := gives_iff.mpr (by krfl)
  have h : Gives ("a #true\n/-a #true/-b".toList ++ ("\n\n".toList ++ ['c']))
      ([.mk none ['a'] [⟨none, none, .bool true⟩] none] ++ [.mk none ['c'] [] none]) := gives_iff.mpr (by krfl)
  exact (((C61_exact h1 hc (by simp)).1).mp h).resolve_right (by simp)

/-- A byte order mark is accepted at the beginning only. -/
theorem C61_violated_mark : Gives (Char.ofNat 0xFEFF :: ['c']) [.mk none ['c'] [] none] ∧
    Document.parse ("a".toList ++ ("\n\n".toList ++ (Char.ofNat 0xFEFF :: ['c']))) = .err :=
  ⟨gives_iff.mpr (by krfl), by krfl⟩

/-- One newline would not do: a line continuation at the end of the first text would swallow it. -/
example : Gives "a \\".toList [.mk none ['a'] [] none] ∧ Gives ['b'] [.mk none ['b'] [] none] ∧
    Gives ("a \\".toList ++ ("\n".toList ++ ['b'])) [.mk none ['a'] [⟨none, none, .string ['b']⟩] none] ∧
    Gives ("a \\".toList ++ ("\n\n".toList ++ ['b'])) [.mk none ['a'] [] none, .mk none ['b'] [] none] := by
  have h1 : Gives "a \\".toList [.mk none ['a'] [] none] := gives_iff.mpr (by krfl)
  have h2 : Gives ['b'] [.mk none ['b'] [] none] := gives_iff.mpr (by krfl)
  refine ⟨h1, h2, gives_iff.mpr (by krfl), C61_no_slashdash h1 h2 ?_ (by simp)⟩
  rintro ⟨a, b, e⟩
  rcases a with _ | ⟨x, _ | ⟨y, _ | ⟨z, a⟩⟩⟩ <;> simp at e

/-- **C62**: an accepted text (without byte order mark) may be put between the braces of a node, on
lines of its own, and its nodes are then the children of that node. -/
theorem C62 {t N nm : Str} {ds : List (SNode Value)} (h : Gives t ds) (hm : ∀ q, t ≠ Char.ofNat 0xFEFF :: q) (hN : StrText N nm) :
    Gives (N ++ (" {\n".toList ++ (t ++ "\n}".toList))) [.mk none nm [] (some ds)] := by
  obtain ⟨u, e, h⟩ := C50_document.mp h
  obtain rfl : t = u := e.resolve_right (hm u)
  refine C50_document.mpr ⟨_, Or.inl rfl, ?_⟩
  have h' (x : Str) : Text (.nodes ds) ('}' :: x) ('\n' :: (t ++ ['\n'])) := nodes_after_lead (L := ['\n']) (lead_lf .leadNil) (nodes_n h x)
  have := Text.items (L := []) .leadNil (.last (Text.block (k := false) (r := []) (tt := []) (T := []) (w := [' ']) (v := [])
    .none hN .nil (fun x => .midSpace (.space (by decide) .nil)) h' (.tailSpace .nil)))
  simpa using this

/-- C62 fails for a byte order mark. -/
theorem C62_needs_no_mark : Gives (Char.ofNat 0xFEFF :: ['c']) [.mk none ['c'] [] none] ∧
    Document.parse ("n".toList ++ (" {\n".toList ++ ((Char.ofNat 0xFEFF :: ['c']) ++ "\n}".toList))) = .err :=
  ⟨gives_iff.mpr (by krfl), by krfl⟩

/-- A text that ends in the middle of a line, with an unfinished line continuation. -/
example : Gives "a #null;b \\".toList [.mk none ['a'] [⟨none, none, .null⟩] none, .mk none ['b'] [] none] ∧
    Gives ("\"\"".toList ++ (" {\n".toList ++ ("a #null;b \\".toList ++ "\n}".toList)))
      [.mk none [] [] (some [.mk none ['a'] [⟨none, none, .null⟩] none, .mk none ['b'] [] none])] := by
  have h : Gives "a #null;b \\".toList [.mk none ['a'] [⟨none, none, .null⟩] none, .mk none ['b'] [] none] := gives_iff.mpr (by krfl)
  exact ⟨h, C62 h (by simp) (.quoted (t := []) .nil)⟩

end

end Kdl
