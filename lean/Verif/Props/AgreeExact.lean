import Verif.Props.Agree
import Verif.Lemmas.DiagFaulty
/-
C67, decided: exactly when the parse functions agree with each other.
-/

namespace Kdl
open Spec

section
variable [FloatIO]

/-- The text that the document keeps for what is behind its nodes. -/
def Document.behind (d : Document) : Str := (d.format.map (·.trailing)).getD []

theorem node_not_bom {s : Str} {d : SNode Value} (h : NodeInput d s) (q : Str) : s ≠ Char.ofNat 0xFEFF :: q := by
  obtain ⟨k, L, B, M, rfl, hL, hB, _⟩ := h
  have hst := hB.reads.1.append M
  exact lead_not_bom hL hst.solid (starts_not_bom hst) q

/-- A document of one node is read by the parser for single nodes up to the text behind the node. -/
theorem nodes_single {total : Nat} {s : Str} {d : Document} (h : nodesF total (baseNode total) s = .ok d []) (h1 : d.nodes.length = 1) :
    ∃ n s1 o, nodeF (baseNode total) s = .ok n s1 ∧ opt nodeTerminator s1 = .ok o d.behind ∧ semDoc id d = [semNode id n] := by
  obtain ⟨lead, q, ns, q2, o, q3, trail, h2, h3, h4, h5, rfl⟩ := nodesF_inv h
  have et : q3 = trail := by
    have := (leadingItems_inv h5).1
    simpa using this
  subst et
  have hsfx : Sfx (nodeF (baseNode total)) := (Strict.nodeF (Strict.baseNode total)).sfx
  rcases sep0_ok.mp h3 with ⟨_, rfl, _⟩ | ⟨n, q4, as, h6, h7, rfl⟩
  · cases h1
  have has : as = [] := by
    have : (giveLeading lead (n :: as)).2.length = (n :: as).length := by
      unfold giveLeading
      dsimp only
      split <;> rfl
    simp only [Document.nodes, this, List.length_cons] at h1
    exact List.length_eq_zero_iff.mp (by omega)
  subst has
  have e : q2 = q4 := by
    cases sepMore_inv hsfx h7 <;> rfl
  subst e
  obtain ⟨l, q5, n0, h8, h9, rfl⟩ := nodeF_inv h6
  rw [leadingItems_again h2] at h8
  cases h8
  refine ⟨n0.setFormat (n0.format.map fun f => { f with leading := lead }), q2, o, ?_, h4, ?_⟩
  · unfold nodeF
    rw [bind_eq h2, bind_eq h9]
    rfl
  · cases n0 with
    | mk ty name es ch f sp => cases f <;> rfl

theorem parse_nodesF {s : Str} {d : Document} (h : Document.parse s = .ok d) (hb : ∀ q, s ≠ Char.ofNat 0xFEFF :: q) :
    nodesF (utf8Len s) (baseNode (utf8Len s)) s = .ok d [] := by
  have h := tryParse_ok.mp h
  unfold documentP at h
  have h4 : opt (takeP bom) s = .ok none s := opt_none (takeP_back (lit_back.mpr hb))
  rw [bind_eq h4, bind_ok] at h
  obtain ⟨d', r, h1, h⟩ := h
  rw [bind_ok] at h
  obtain ⟨_, r', h2, h⟩ := h
  obtain ⟨rfl, rfl⟩ := pure_ok.mp h
  have : r = [] := by
    cases r with
    | nil => rfl
    | cons c q => cases h2
  rw [h1, this]

/-- **C67, decided** for nodes: an accepted document text with one node is accepted by `KdlNode::parse` exactly if it does
not begin with a byte order mark and the text behind the node is only white space, line breaks and comments, which means
that it has no slashdashed node. Everything else is an error for `KdlNode::parse`. -/
theorem C67_exact {s : Str} {d : Document} (h : Document.parse s = .ok d) (h1 : d.nodes.length = 1) :
    ((∃ n, Node.parse s = .ok n ∧ [semNode id n] = semDoc id d) ↔ (∀ q, s ≠ Char.ofNat 0xFEFF :: q) ∧ LSpace [] d.behind) ∧
      (Node.parse s = .err ↔ ¬ ((∀ q, s ≠ Char.ofNat 0xFEFF :: q) ∧ LSpace [] d.behind)) := by
  have key : (∃ n, Node.parse s = .ok n ∧ [semNode id n] = semDoc id d) ↔ (∀ q, s ≠ Char.ofNat 0xFEFF :: q) ∧ LSpace [] d.behind := by
    constructor
    · rintro ⟨n, h2, _⟩
      have hb := fun q => node_not_bom (C50_node.mp ⟨n, h2, rfl⟩) q
      obtain ⟨n1, s1, o, h3, h4, _⟩ := nodes_single (parse_nodesF h hb) h1
      refine ⟨hb, ?_⟩
      have h2 := tryParse_ok.mp h2
      unfold paddedNode at h2
      rw [bind_here, bind_eq h3, bind_eq h4, bind_ok] at h2
      obtain ⟨v, s3, h5, h2⟩ := h2
      rw [bind_here] at h2
      obtain ⟨rfl, rfl⟩ := pure_ok.mp h2
      obtain ⟨e, hv⟩ := lineEnd_inv h5
      rw [List.append_nil] at e
      rwa [e]
    · rintro ⟨hb, hv⟩
      obtain ⟨n1, s1, o, h3, h4, h5⟩ := nodes_single (parse_nodesF h hb) h1
      have h6 := (lineEnd_eq hv).2
      obtain ⟨n', h7, h8⟩ : ∃ n', paddedNode (utf8Len s) s = .ok n' [] ∧ semNode id n' = semNode id n1 := by
        unfold paddedNode
        rw [bind_here, bind_eq h3, bind_eq h4, bind_eq h6, bind_here]
        refine ⟨_, rfl, ?_⟩
        cases n1; rfl
      exact ⟨n', tryParse_ok.mpr h7, by rw [h5, h8]⟩
  refine ⟨key, ?_⟩
  rw [← key]
  constructor
  · rintro h2 ⟨n, h3, _⟩
    rw [h2] at h3; cases h3
  · intro h2
    rcases (C06_ok_or_err s).2.1 with ⟨n, hn⟩ | h3
    · refine absurd ⟨n, hn, ?_⟩ h2
      obtain ⟨d', h4, h5⟩ := C67_node hn
      rw [h] at h4; cases h4
      exact h5.symm
    · exact h3

/-! ### Entries -/

omit [FloatIO] in
/-- Line space is white space of one line, and perhaps the end of the line and more line space. -/
theorem lspace_parts {r w : Str} (h : LSpace r w) :
    ∃ a M, w = a ++ M ∧ NSpace (M ++ r) a ∧ (M = [] ∨ ∃ m v, M = m ++ v ∧ TermText m (v ++ r) ∧ LSpace r v) := by
  induction h with
  | nil => exact ⟨[], [], rfl, .nil, Or.inl rfl⟩
  | space h1 _ ih =>
    obtain ⟨a, M, rfl, h2, h3⟩ := ih
    exact ⟨_ :: a, M, rfl, .space h1 h2, h3⟩
  | @comment b t hb _ ih =>
    obtain ⟨a, M, rfl, h2, h3⟩ := ih
    exact ⟨'/' :: '*' :: (b ++ '*' :: '/' :: a), M, by simp, .comment hb h2, h3⟩
  | @cont b n t hb hm _ ih =>
    obtain ⟨a, M, rfl, h2, h3⟩ := ih
    exact ⟨'\\' :: (b ++ (n ++ a)), M, by simp, .cont hb (by rwa [List.append_assoc] at hm) h2, h3⟩
  | @newline m t hm h _ => exact ⟨[], m ++ t, rfl, .nil, Or.inr ⟨m, t, rfl, Or.inr (Or.inl hm), h⟩⟩
  | @line m t hm h _ => exact ⟨[], m ++ t, rfl, .nil, Or.inr ⟨m, t, rfl, Or.inr (Or.inr hm), h⟩⟩

/-- The text begins with white space of one line, line breaks after a backslash allowed, and then a token or a slashdash. -/
def OneLine (s : Str) : Prop := ∃ l x, s = l ++ x ∧ NSpace x l ∧ (Starts x ∨ ∃ q, x = '/' :: '-' :: q)

/-- **C67, decided** for entries: what `KdlEntry::parse` accepts is the only entry of a node, if it is put behind a name
and a space, exactly if it begins on its first line. -/
theorem C67_entry_exact {nt nm s : Str} {e : Entry} (hn : ∃ i, Ident.parse nt = .ok i ∧ i.value = nm) (h : Entry.parse s = .ok e) :
    Gives (nt ++ ' ' :: s) [.mk none nm [semEntry id e] none] ↔ OneLine s := by
  have hn := C50_identifier.mp hn
  obtain ⟨l, t, v, ht, hv, h⟩ := C50_entry.mp ⟨e, h, rfl⟩
  have hne := starts_ne (Kdl.EntryEnd.starts ht)
  have hsp : Space ' ' := by decide
  -- the text in front, and what it stands in front of
  obtain ⟨x, es, hl, hx, hlead⟩ : ∃ x, s = l ++ x ∧ LSpace x l ∧ (Starts x ∨ ∃ q, x = '/' :: '-' :: q) ∧
      (NSpace x l → ∃ w, EntryLead t w ∧ ' ' :: s = w ++ (t ++ v)) := by
    have hst := (Kdl.EntryEnd.starts ht).append v
    rcases h with ⟨rfl, h0⟩ | ⟨S, w, rfl, h1, h2, h3, h4⟩
    · refine ⟨t ++ v, rfl, h0.swap hne hst.solid.notNl, Or.inl hst, fun h => ⟨' ' :: l, .space (.space hsp ?_) (by simp), rfl⟩⟩
      exact h.cut hne
    · have hsl := h2.slash.append (w ++ (t ++ v))
      refine ⟨S ++ (w ++ (t ++ v)), rfl, h1.swap h2.slash.ne hsl.notNl, Or.inr hsl, fun h => ⟨' ' :: l ++ (S ++ w), .slash (.space hsp ?_) (by simp) h2 h3 h4,
        by simp⟩⟩
      exact h.cut h2.slash.ne
  have hback : ∀ {x : Str}, (Starts x ∨ ∃ q, x = '/' :: '-' :: q) → lineSpace x = .back := by
    rintro x (h | h)
    · exact h.solid.lineSpace
    · exact Slash.lineSpace h
  constructor
  · intro hg
    obtain ⟨a, M, el, ha, hM⟩ := lspace_parts hl
    rcases hM with rfl | ⟨m, u, rfl, hm, _⟩
    · rw [List.append_nil] at el
      subst el
      exact ⟨l, x, es, by simpa using ha, hx⟩
    · exfalso
      obtain ⟨d, hd, e2⟩ := hg
      have hB : Text (.node false (.mk none nm [] none)) (m ++ (u ++ x)) (nt ++ ' ' :: a) := by
        have := Text.leaf (ty := none) .none hn .nil (.midSpace (.space hsp (by simpa using ha)))
        simpa using this
      have ew : nt ++ ' ' :: s = (nt ++ ' ' :: a) ++ (m ++ (u ++ x)) := by rw [es, el]; simp
      obtain ⟨hst, hr⟩ := hB.reads
      have hst' := hst.append (m ++ (u ++ x))
      obtain ⟨n, h2, h3⟩ := hr (Or.inl (Or.inr (Or.inr ⟨_, _, termText_eq hm⟩))) (utf8Len (nt ++ ' ' :: s))
      rw [← ew] at hst' h2
      have h1 : d.nodes.length = 1 := by
        cases d with
        | mk ns f sp =>
          rcases ns with _ | ⟨n, _ | ⟨n', ns⟩⟩
          · simp [semDoc, semNodes] at e2
          · rfl
          · simp [semDoc, semNodes] at e2
      obtain ⟨n1, s1, o, h4, _, h5⟩ := nodes_single (parse_nodesF hd (starts_not_bom hst')) h1
      obtain ⟨l', q, n0, h6, h7, rfl⟩ := nodeF_inv h4
      have hli : leadingItems (baseNode (utf8Len (nt ++ ' ' :: s))) (nt ++ ' ' :: s) = .ok [] (nt ++ ' ' :: s) :=
        Lead.nil _ _ hst'.solid
      rw [hli] at h6
      injection h6 with el' eq
      subst el'
      rw [← eq, h2] at h7
      cases h7
      have e3 : semNode id (n.setFormat (n.format.map fun f => { f with leading := [] })) = semNode id n := by cases n; rfl
      rw [h5, e3, h3] at e2
      cases e2
  · rintro ⟨l', x', e1, hl', hx'⟩
    have hl1 : NSpace x l := by
      have d1 : Drain (lineSpace <+> failP) (l ++ x) x := hl.drain (Drain.stop (by rw [alt_right (hback hx)]; rfl))
      have d2 : Drain (lineSpace <+> failP) (l' ++ x') x' := hl'.lspace.drain (Drain.stop (by rw [alt_right (hback hx')]; rfl))
      rw [← es, e1] at d1
      obtain ⟨_, d1⟩ := d1
      obtain ⟨_, d2⟩ := d2
      rw [d1] at d2
      cases d2
      obtain rfl : l' = l := List.append_cancel_right (e1.symm.trans es)
      exact hl'
    obtain ⟨w, hw, ew⟩ := hlead hl1
    obtain ⟨a, M, rfl, h1, hM⟩ := lspace_parts hv
    rw [ew]
    have hE : EntriesText [semEntry id e] (w ++ (t ++ [])) := .cons hw ht .nil
    rw [List.append_nil] at hE h1
    refine C50_document.mpr ⟨_, Or.inl rfl, ?_⟩
    have hB := Text.leaf (ty := none) .none hn hE (.midSpace h1)
    rcases hM with rfl | ⟨m, u, rfl, hm, hu⟩
    · have := Text.items (r := []) .leadNil (.last hB)
      simpa using this
    · have hL : Text .lead [] u := by
        have := Text.leadSpace (r := []) (w := u) (L := []) (by simpa using hu) .leadNil
        simpa using this
      have := Text.items (r := []) .leadNil (.lastTerm (r := []) (L := u) (m := m) (by simpa using hB) (by simpa using hm) hL)
      simpa using this

/-- Texts on both sides of the two theorems. -/
theorem C67_exact_example :
    (∃ d, Document.parse "/-x\na 1 // c\n/*d*/".toList = .ok d ∧ d.nodes.length = 1 ∧ d.behind = "/*d*/".toList ∧ LSpace [] d.behind) ∧
    (∃ d, Document.parse "a\n/-b".toList = .ok d ∧ d.nodes.length = 1 ∧ d.behind = "/-b".toList ∧ ¬ LSpace [] d.behind) := by
  constructor
  · obtain ⟨d, h, e⟩ := ParseResult.view_ok (r := Document.parse "/-x\na 1 // c\n/*d*/".toList)
      (f := fun d => (d.nodes.length, d.behind)) (b := (1, "/*d*/".toList)) (by krfl)
    injection e with e1 e2
    exact ⟨d, h, e1, e2, by rw [e2]; exact .comment (a := ['d']) (t := []) (.char (by decide) (by decide) .nil) .nil⟩
  · obtain ⟨d, h, e⟩ := ParseResult.view_ok (r := Document.parse "a\n/-b".toList)
      (f := fun d => (d.nodes.length, d.behind)) (b := (1, "/-b".toList)) (by krfl)
    injection e with e1 e2
    refine ⟨d, h, e1, e2, fun hl => ?_⟩
    have := ((C67_exact h e1).1.mpr ⟨by rintro q ⟨⟩, hl⟩)
    obtain ⟨n, h2, _⟩ := this
    rw [C67_violated.2.1] at h2
    cases h2

theorem C67_entry_exact_example : OneLine " /-1 k=(t)#null // c\n".toList ∧
    (∃ e, Entry.parse " /-1 k=(t)#null // c\n".toList = .ok e ∧ semEntry id e = ⟨some ['t'], some ['k'], .null⟩) ∧
    (∃ e, Entry.parse "\nx".toList = .ok e) ∧ ¬ OneLine "\nx".toList := by
  refine ⟨⟨[' '], "/-1 k=(t)#null // c\n".toList, rfl, .space (by decide) .nil, Or.inr ⟨_, rfl⟩⟩, ParseResult.view_ok (by krfl),
    C67_violated.2.2.2.2.1.imp fun _ h => h.1, fun h => ?_⟩
  obtain ⟨e, h1, h2⟩ := C67_violated.2.2.2.2.1
  obtain ⟨d, h3, h4⟩ := (C67_entry_exact (nt := ['n']) (nm := ['n']) (ParseResult.view_ok (by krfl)) h1).mpr h
  obtain ⟨d', h5, h6⟩ := C67_violated.2.2.2.2.2
  rw [show ['n'] ++ ' ' :: "\nx".toList = "n \nx".toList from rfl, h5] at h3
  cases h3
  rw [h6] at h4
  cases h4

end

end Kdl
