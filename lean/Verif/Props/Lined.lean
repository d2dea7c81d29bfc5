import Verif.Props.Reformat
import Verif.Lemmas.Parser.Doubled
/-
Formatted documents with slashdashed nodes on lines of their own, and with slashdashed
entries and blocks at the end of a node.
-/

namespace Kdl
open Spec

section
variable [FloatIO]

/-! ### The recorded texts -/

mutual
/-- The texts around the node are as the formatter needs them. -/
inductive TameNode : Node → Prop
  | mk {ty : Option Ident} {name : Ident} {es : List Entry} {ch : Option Document} {f : NodeFmt} {span : Span}
      (h1 : Orderly f.leading) (h2 : Ending ch.isSome f.beforeTerminator) (h3 : ∀ d, ch = some d → TameDoc d) :
      TameNode (.mk ty name es ch (some f) span)
/-- The same for a document. -/
inductive TameDoc : Document → Prop
  | mk {ns : List Node} {f : DocFmt} {span : Span} (h1 : Orderly f.leading) (h2 : Orderly f.trailing)
      (h3 : ∀ n ∈ ns, TameNode n) : TameDoc (.mk ns (some f) span)
end

theorem lead_orderly {r L : Str} (h : Text .lead r L) (hl : HasSlash L → Lined L) : Orderly L := by
  by_cases hs : HasSlash L
  · exact .inr (hl hs)
  · exact .inl ⟨r, lead_plain h hs⟩

theorem mid_ending {k : Bool} {r w : Str} (h : Text (.mid k) r w) (hl : HasSlash w → '\r' ∉ w) : Ending false w := by
  by_cases hs : HasSlash w
  · exact .inr (.inl ⟨rfl, hl hs, k, r, h⟩)
  · exact .inl ⟨r, w, mid_plain h hs, rfl⟩

theorem nil_ending (b : Bool) : Ending b [] := .inl ⟨[], [], .nil, rfl⟩

theorem TailSrc.ending {w : Str} (h : TailSrc w) (hl : HasSlash w → '\r' ∉ w) : Ending true w := by
  rcases h with rfl | ⟨p, C, rfl, h1, h2⟩
  · exact nil_ending _
  · refine .inr (.inr ⟨rfl, hl ?_, p, C, rfl, h1, h2⟩)
    have : ∃ q, C = '/' :: '-' :: q := by cases h2 <;> exact ⟨_, rfl⟩
    obtain ⟨q, rfl⟩ := this
    exact ⟨p, q, by simp⟩

/-- What is shown for each category. -/
def TameGoal : TCat → Prop
  | .node _ n => LinedNode n → Orderly (leadOf n) → TameNode n
  | .items ns tr => (∀ n ∈ ns, LinedNode n) → (HasSlash tr → Lined tr) → (∀ n, ns.head? = some n → Orderly (leadOf n)) →
      (∀ n ∈ ns, TameNode n) ∧ Orderly tr
  | .nodes d => LinedDoc d → TameDoc d

theorem Spec.LinedNode.lead {n : Node} (h : LinedNode n) : HasSlash (leadOf n) → Lined (leadOf n) := by
  cases h with
  | @mk _ _ _ _ format _ h1 h2 =>
    cases format with
    | none =>
      rintro ⟨a, b, e⟩
      simp [leadOf, Node.format] at e
    | some f => exact (h1 f rfl).1

theorem Tree.tame {c : TCat} {r t : Str} (h : Tree c r t) : TameGoal c := by
  induction h with
  | @leaf k ty name es f span tt nt T w r h1 hn h2 h3 h4 h5 h6 =>
    rintro (⟨l1, l2⟩) hl
    refine .mk hl ?_ (by simp)
    have := (l1 f rfl).2
    rw [h5] at this ⊢
    exact mid_ending h4 this
  | @leafKeyword ty name es e fe f span tt nt T w t r h1 hn h2 h3 hf hl hd hw hE h5 h6 =>
    intro _ hl
    refine .mk hl ?_ (by simp)
    rw [h5]
    exact nil_ending _
  | @block k ty name es d f span tt nt T w D v u r h1 hn h2 h3 h4 hw hd h6 hu h7 h8 ih =>
    rintro (⟨l1, l2⟩) hl
    refine .mk hl (h6.ending (l1 f rfl).2) ?_
    rintro _ ⟨⟩
    exact ih (l2 _ rfl)
  | @last k r B n hB ht ih =>
    intro hs _ hh
    exact ⟨by simpa using ih (hs n (by simp)) (hh n rfl), .inl ⟨[], .nil⟩⟩
  | @lastTerm k r B m L n hB hm hL ht ih =>
    intro hs htr hh
    exact ⟨by simpa using ih (hs n (by simp)) (hh n rfl), lead_orderly hL htr⟩
  | @lastSlash r q B n hB hL ht ih =>
    intro hs htr hh
    exact ⟨by simpa using ih (hs n (by simp)) (hh n rfl), lead_orderly hL htr⟩
  | @cons k r B m L T tr n n2 ns hB hm hL ht hT h2 ihB ihT =>
    intro hs htr hh
    have hl2 := (hs n2 (by simp)).lead
    rw [h2] at hl2
    obtain ⟨i1, i2⟩ := ihT (fun m hm => hs m (List.mem_cons_of_mem _ hm)) htr (by rintro _ ⟨⟩; rw [h2]; exact lead_orderly hL hl2)
    refine ⟨?_, i2⟩
    intro m hm
    rcases List.mem_cons.mp hm with rfl | hm
    · exact ihB (hs _ (by simp)) (hh _ rfl)
    · exact i1 m hm
  | @empty r L f span hL h1 h2 =>
    rintro (⟨l1, l2⟩)
    refine .mk ?_ ?_ (by simp)
    · have := (l1 f rfl).1
      rw [h1] at this ⊢
      exact lead_orderly hL this
    · rw [h2]; exact .inl ⟨[], .nil⟩
  | @items r L T f span n ns hL hT h1 h2 ih =>
    rintro (⟨l1, l2⟩)
    have hl := (l2 n (by simp)).lead
    rw [h1] at hl
    obtain ⟨i1, i2⟩ := ih l2 (l1 f rfl).2 (by rintro _ ⟨⟩; rw [h1]; exact lead_orderly hL hl)
    refine .mk ?_ i2 i1
    rw [h2]
    exact .inl ⟨[], .nil⟩

mutual
theorem NodeRun.tame {total : Nat} {whole : Str} : ∀ {n : Node}, NodeRun total whole n → NodeWritable n → TameNode n → NeatNode n
  | _, .mk h1 h2 h3 h4 h5 h6 h7 h8, .mk w1 w2 w3 w4, .mk q1 q2 q3 =>
    .mk w1 w2 (fun e he => by
        obtain ⟨s, r, hs, h⟩ := h3 e he
        obtain ⟨f, hf, hk⟩ := nodeEntry_keep h
        refine ⟨?_, (w3 e he).name, ?_, (w3 e he).value⟩
        · rintro f' e'
          rw [hf] at e'
          cases e'
          exact hk
        · intro t ht
          exact nodeEntry_shown h t (by simp [entryIdents, ht]))
      (fun f hf => by
        cases hf
        obtain ⟨s, r, _, h⟩ := h6
        exact ⟨fun t ht => tailP_term h ht, by rw [h7]; rintro _ ⟨⟩, q1, q2⟩)
      (fun d hd => DocRun.tame (h8 d hd) (w4 d hd) (q3 d hd))
theorem DocRun.tame {total : Nat} {whole : Str} : ∀ {d : Document}, DocRun total whole d → DocWritable d → TameDoc d → NeatDoc d
  | _, .mk h1 h2 h3, .mk w, .mk q1 q2 q3 =>
    .mk (fun f hf => by cases hf; exact ⟨q1, q2⟩) (fun n hn => NodeRun.tame (h1 n hn) (w n hn) (q3 n hn))
end

/-- **C14**, partial: a text without a byte order mark is parsed, and the document is
formatted with or without its comments, with any indent made of KDL white space. If each
line between nodes that has a slashdashed node is complete, then the document prints to a
text that is accepted and has the same data. Slashdashed entries and blocks may stand
anywhere; if they stand after the last entry or block of a node, there must be no carriage
return there. Missing from C14: slashdashed nodes that go over several lines
(`C14_violated_slashdash` shows that it does not hold for all of them), and strings that
cannot be written (`C14_violated_string`). -/
theorem C14_lines_partial [LawfulFloatIO] {s : Str} {d : Document} (h : Document.parse s = .ok d) (hw : DocWritable d)
    (hl : LinedDoc d) (hb : ∀ q, s ≠ Char.ofNat 0xFEFF :: q) {c : FormatConfig} (hk : c.entryKeep = false)
    (hi : ∀ x ∈ c.indent, Space x) :
    ∃ d', Document.parse (d.autoformatConfig c).display = .ok d' ∧ semDoc canonValue d' = semDoc canonValue d := by
  obtain ⟨b, d0, hb0, h1, e0⟩ := parse_run h
  obtain ⟨D, d1, h2, he⟩ := parse_exact h
  rcases he with ⟨_, e1⟩ | ⟨rfl, _⟩
  · subst e1
    have hq := h2.tame hl
    refine NeatDoc.parse hk hi ?_
    have hn0 : d0.nodes = d.nodes := by rw [e0]; rfl
    cases hq with
    | mk q1 q2 q3 =>
      refine .mk (fun f hf => by cases hf; exact ⟨q1, q2⟩) fun n hn => ?_
      cases h1 with
      | mk r1 r2 r3 =>
        cases hw with
        | mk w =>
          obtain rfl := hn0
          exact NodeRun.tame (r1 n hn) (w n hn) (q3 n hn)
  · exact absurd rfl (hb D)

end

/-- What parsing the text below gives. -/
def sampleLined : Document :=
  .mk [.mk none ⟨['a'], some ['a'], ⟨6, 1⟩⟩ []
        (some (.mk [] (some { leading := ['/', '-', 'e', '\n'] }) ⟨19, 0⟩))
        (some { leading := ['/', '-', 'b', ' ', 'c', '\n'], beforeChildren := [' ', '/', '-', '"', 'x', '"', ' '],
                beforeTerminator := [' ', '/', '-', '{', '\n', '}'], terminator := ['\n'] }) ⟨6, 20⟩]
    (some { trailing := ['/', '-', 'd', '\n'] }) ⟨6, 20⟩

/-- Slashdashed nodes, entries and blocks in all places. -/
example [FloatIO] : Document.parse "/-b c\na /-\"x\" {/-e\n} /-{\n}\n/-d\n".toList = .ok sampleLined := by krfl

theorem lined_line [FloatIO] {c e : Char} {l q : Str} (h0 : '\n' ∉ l) (h1 : l = c :: q) (hc : isWhitespace c = false)
    (h2 : l.getLast? = some e) (he : isWhitespace e = false) (h : ∀ x, Text .lead x (l ++ ['\n'])) : Lined (l ++ ['\n']) := by
  rw [Lined, pieces_of_line _ _ h0, pieces_of_last _ (by simp)]
  intro k hk a m b e1 ha hb x
  rcases List.mem_cons.mp hk with rfl | hk
  · have ea : a = [] := by
      cases a with
      | nil => rfl
      | cons y a =>
        rw [e1] at h1
        have := ha y (by simp)
        cases h1
        rw [hc] at this
        cases this
    have eb : b = [] := by
      rcases List.eq_nil_or_concat b with rfl | ⟨b', y, rfl⟩
      · rfl
      · rw [e1] at h2
        simp only [List.concat_eq_append, ← List.append_assoc, List.getLast?_concat, Option.some.injEq] at h2
        subst h2
        have := hb y (by simp)
        rw [he] at this
        cases this
    subst ea
    subst eb
    simp only [List.append_nil, List.nil_append] at e1
    rw [← e1]
    exact h x
  · rw [List.mem_singleton.mp hk] at e1
    obtain ⟨_, e1⟩ := List.append_eq_nil_iff.mp e1.symm
    rw [(List.append_eq_nil_iff.mp e1).1]
    exact lead_of_lspace (nl_lspace x)

/-- It meets the hypotheses of `C14_lines_partial`. -/
example [FloatIO] : DocWritable sampleLined ∧ LinedDoc sampleLined := by
  have hb : ∀ c : Char, c ∈ ['b', 'c', 'd', 'e'] → StrText [c] [c] := by
    intro c hc
    simp only [List.mem_cons, List.not_mem_nil, or_false] at hc
    rcases hc with rfl | rfl | rfl | rfl <;> exact bare_letter (by decide) (by decide)
  have one : ∀ c : Char, c ∈ ['b', 'c', 'd', 'e'] → ∀ x, Text .lead x ['/', '-', c, '\n'] := by
    intro c hc x
    have hB : Text (.node false (.mk none [c] [] none)) ('\n' :: x) ([] ++ ([c] ++ ([] ++ []))) :=
      .leaf .none (hb c hc) .nil (.midSpace .nil)
    exact .leadNode (b := []) (L := ['\n']) .nil hB (.inl (.inr ⟨_, _, rfl, .inr (.inr (.inl (by decide)))⟩)) (lead_of_lspace (nl_lspace x))
  refine ⟨.mk ?_, .mk ?_ ?_⟩
  · intro n hn
    rw [List.mem_singleton.mp hn]
    refine .mk (by rintro _ ⟨⟩) (Writable.of_head (by decide) (by decide)) (by simp) ?_
    rintro _ ⟨⟩
    exact .mk (by simp)
  · rintro _ ⟨⟩
    refine ⟨fun h => absurd h (by unfold HasSlash; decide), fun _ => ?_⟩
    exact lined_line (l := ['/', '-', 'd']) (by decide) rfl (by decide) rfl (by decide) (one 'd' (by decide))
  · intro n hn
    rw [List.mem_singleton.mp hn]
    refine .mk ?_ ?_
    · rintro _ ⟨⟩
      refine ⟨fun _ => ?_, fun _ => by decide⟩
      refine lined_line (l := ['/', '-', 'b', ' ', 'c']) (by decide) rfl (by decide) rfl (by decide) fun x => ?_
      have hB : Text (.node false (.mk none ['b'] [⟨none, none, .string ['c']⟩] none)) ('\n' :: x)
          ([] ++ (['b'] ++ (([' '] ++ (([] ++ ['c']) ++ [])) ++ []))) :=
        .leaf .none (hb 'b' (by decide)) (.cons (.space (.space (by decide) .nil) (by simp))
          (.arg .none (ValText.str (hb 'c' (by decide)))) .nil) (.midSpace .nil)
      exact .leadNode (b := []) (L := ['\n']) .nil hB (.inl (.inr ⟨_, _, rfl, .inr (.inr (.inl (by decide)))⟩)) (lead_of_lspace (nl_lspace x))
    · rintro _ ⟨⟩
      refine .mk ?_ (by simp)
      rintro _ ⟨⟩
      refine ⟨fun _ => ?_, fun h => absurd h (by unfold HasSlash; decide)⟩
      exact lined_line (l := ['/', '-', 'e']) (by decide) rfl (by decide) rfl (by decide) (one 'e' (by decide))

end Kdl
