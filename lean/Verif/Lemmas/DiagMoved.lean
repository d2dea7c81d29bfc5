import Verif.Lemmas.DiagFatal
import Verif.Lemmas.RecoverSpans
/-
The diagnostics of a text that follows accepted text.
-/

namespace Kdl
open Spec

section
variable [FloatIO]

/-- Accepted text and an empty line, in front of anything. -/
theorem nodes_onward {ds : List (SNode Value)} {t : Str} (h : Text (.nodes ds) [] t) :
    (∀ Z, Onward (t ++ ('\n' :: '\n' :: Z)) Z) ∨ ∃ L T, t = L ++ T ∧ Text .lead T L ∧ SlashItems ds T := by
  cases h with
  | empty hL => exact Or.inl fun Z => .ahead fun total => lead_ahead hL rfl rfl total Z
  | @items r L T ds hL hT =>
    have hT' : Starts T := hT.reads.1
    have hne : T ≠ [] := starts_ne hT'
    rw [List.append_nil] at hL
    refine (items_onward hT rfl rfl).imp (fun h Z => ?_) fun h => ⟨L, T, rfl, hL, h⟩
    rw [List.append_assoc]
    exact (Onward.lead (hL.extend hne _) (hT'.append _)).trans (h Z)

theorem document_alike {s s' u : Str} (h : Onward s u) (hs : (s' = s ∧ ∀ q, s ≠ Char.ofNat 0xFEFF :: q) ∨
    s' = Char.ofNat 0xFEFF :: s) (hu : ∀ q, u ≠ Char.ofNat 0xFEFF :: q) (total n : Nat) :
    (documentDN total (n + 1) s' []).Alike [] (documentDN total (n + 1) u []) := by
  obtain ⟨b, hb⟩ : ∃ b, D.lift (.opt (.takeP bomL)) s' [] = .ok b s [] := by
    rcases hs with ⟨rfl, hs⟩ | rfl
    · exact ⟨_, noBom_run hs []⟩
    · exact ⟨_, D.lift_run (.opt (.takeP .bom)) (opt_some (takeP_eq (a := ()) (t := [Char.ofNat 0xFEFF]) (lit_ok.mpr rfl))) []⟩
  unfold documentDN documentDF
  rw [D.bind_run hb, D.bind_run (noBom_run hu []), D.bind_def, D.bind_def]
  have h := h total
  cases h1 : nodesDF total (baseNodeD total) s [] <;> cases h2 : nodesDF total (baseNodeD total) u [] <;>
    rw [h1, h2] at h <;> try exact h.elim
  · next d r l d' r' l' =>
    obtain ⟨rfl, h⟩ := h
    simp only
    rw [D.bind_def, D.bind_def]
    have hd := DTr.docEndD (DTr.documentDN total id n)
    rw [hd.after r l, hd.after r l']
    simp only [List.not_mem_nil, false_or] at h
    cases docEndD (documentDN total n) r [] with
    | ok x r1 l1 =>
      cases b <;> simp only [DRes.after, Pure.pure, D.pure, DRes.Alike, List.mem_append, h, List.not_mem_nil, false_or, true_and,
        implies_true]
    | back e r1 l1 => simp [DRes.after, DRes.Alike, List.mem_append, h]
    | cut e g r1 l1 => simp [DRes.after, DRes.Alike, List.mem_append, h]
    | crash => trivial
  · exact h
  · exact h
  · trivial

/-- The result of a document's parser is the result of the parse, and what is recorded lies in the text. -/
theorem parseD_run {u : Str} (np : Document.parseD u ≠ .panic) :
    (∃ d, documentDN (utf8Len u) (u.length + 1) u [] = .ok d [] [] ∧ Document.parseD u = .ok d) ∨
    (∃ d l, documentDN (utf8Len u) (u.length + 1) u [] = .ok d [] l ∧ l ≠ [] ∧ (∀ y ∈ l, y.2.In u) ∧
      Document.parseD u = .err (l.map (Rec.diagnostic (utf8Len u)))) ∨
    (∃ e g r l, documentDN (utf8Len u) (u.length + 1) u [] = .cut e g r l ∧ (∀ y ∈ l, y.2.In u) ∧
      (∀ y, g = some y → y.In u) ∧ r <:+ u ∧ (g = none → e.label = commentCx.label) ∧
      Document.parseD u = .err ((l ++ [(e, located g u r)]).map (Rec.diagnostic (utf8Len u)))) := by
  have hd := DTr.documentDN (utf8Len u) id (u.length + 1)
  have he := hd.erase u []
  have hin := hd.inside u
  have hw := Within.documentRN (w := u) (v := u) (diagRecovery (utf8Len u) id) (utf8Len u) (u.length + 1) (List.suffix_refl u) u []
    (List.suffix_refl u) (by intro x hx; cases hx)
  have hp : Document.parseD u = tryParseD documentD u := rfl
  unfold tryParseD recoverableParseD documentD at hp
  have hends := documentDN_end (utf8Len u) (u.length + 1) u []
  have hback := (documentD_told (utf8Len u) (u.length + 1)).2 u []
  have hf := DFatal.document (utf8Len u) (u.length + 1) u []
  cases hx : documentDN (utf8Len u) (u.length + 1) u [] with
  | ok d r l =>
    obtain rfl := hends d r l hx
    rw [hx] at he hp
    simp only [DRes.erase, List.map_nil] at he
    rw [← he] at hw
    have hall : ∀ y ∈ l, y.2.In u := fun y hy => hw.2 _ (List.mem_map_of_mem hy)
    cases l with
    | nil => exact Or.inl ⟨d, rfl, hp⟩
    | cons y l => exact Or.inr (Or.inl ⟨d, _, rfl, by simp, hall, hp⟩)
  | back e r l => exact absurd hx (hback e r l)
  | cut e g r l =>
    rw [hx] at he hp hin
    simp only [DRes.erase, List.map_nil] at he
    rw [← he] at hw
    refine Or.inr (Or.inr ⟨e, g, r, l, rfl, fun y hy => hw.2 _ (List.mem_map_of_mem hy), hw.1, ?_, ?_, ?_⟩)
    · exact hin
    · rintro rfl; exact hf e r l hx
    · simp only at hp
      cases hl : l ++ [(e, located g u r)] with
      | nil => simp at hl
      | cons x l' => rw [hl] at hp; exact hp
  | crash => rw [hx] at hp; exact absurd hp np

/-- The diagnostic `d'` is the diagnostic `d`, about a place `k` bytes further on, or about an unclosed comment
in a text that is `k` bytes longer at its beginning. -/
def Spec.Moved (k : Nat) (d d' : Diagnostic) : Prop :=
  d'.message = d.message ∧ d'.label = d.label ∧ d'.help = d.help ∧
  (d'.span = ⟨d.span.offset + k, d.span.len⟩ ∨
    d.label = some "not closing of multi-line comment" ∧ d.span.offset = 0 ∧ d'.span = ⟨0, d.span.len + k⟩)

omit [FloatIO] in
theorem moved_in {p u : Str} {y : Rec} (h : y.2.In u) :
    Moved (utf8Len p) (Rec.diagnostic (utf8Len u) y) (Rec.diagnostic (utf8Len (p ++ u)) y) := by
  refine ⟨rfl, rfl, rfl, Or.inl ?_⟩
  have h1 := utf8Len_suffix h.1
  have h2 := utf8Len_append p u
  simp only [Rec.diagnostic, spanOf, Span.mk.injEq]
  exact ⟨by omega, trivial⟩

omit [FloatIO] in
theorem moved_comment {p u r : Str} {e : PErr} (hr : r <:+ u) (he : e.label = commentCx.label) :
    Moved (utf8Len p) (Rec.diagnostic (utf8Len u) (e, ⟨u, r⟩)) (Rec.diagnostic (utf8Len (p ++ u)) (e, ⟨p ++ u, r⟩)) := by
  have h1 := utf8Len_suffix hr
  have h2 := utf8Len_append p u
  refine ⟨rfl, rfl, rfl, Or.inr ⟨?_, ?_, ?_⟩⟩
  · simp only [Rec.diagnostic, he]; rfl
  · simp [Rec.diagnostic, spanOf]
  · simp only [Rec.diagnostic, spanOf, Span.mk.injEq]
    omega

/-- Parses that go alike report alike. -/
theorem alike_moved {p u : Str} (np : Document.parseD u ≠ .panic) (np' : Document.parseD (p ++ u) ≠ .panic)
    (h : ∀ total n, (documentDN total (n + 1) (p ++ u) []).Alike [] (documentDN total (n + 1) u [])) :
    ((∃ d, Document.parseD u = .ok d) → ∃ d, Document.parseD (p ++ u) = .ok d) ∧
    ∀ es, Document.parseD u = .err es → ∃ es', Document.parseD (p ++ u) = .err es' ∧
      (∀ d ∈ es, ∃ d' ∈ es', Moved (utf8Len p) d d') ∧ (∀ d' ∈ es', ∃ d ∈ es, Moved (utf8Len p) d d') := by
  have h := h (utf8Len (p ++ u)) (p ++ u).length
  have same := same_documentDN (utf8Len u) (utf8Len (p ++ u)) (n := u.length + 1) (m := u.length + 1) (k := (p ++ u).length + 1)
    (Nat.le_refl _) (by simp) u [] (Nat.lt_succ_self _)
  have recs : ∀ {l l' : List Rec}, (∀ y ∈ l, y.2.In u) → (∀ x, x ∈ l' ↔ x ∈ ([] : List Rec) ∨ x ∈ l) →
      (∀ d ∈ l.map (Rec.diagnostic (utf8Len u)), ∃ d' ∈ l'.map (Rec.diagnostic (utf8Len (p ++ u))), Moved (utf8Len p) d d') ∧
      (∀ d' ∈ l'.map (Rec.diagnostic (utf8Len (p ++ u))), ∃ d ∈ l.map (Rec.diagnostic (utf8Len u)), Moved (utf8Len p) d d') := by
    intro l l' hl hx
    simp only [List.not_mem_nil, false_or] at hx
    constructor
    · intro d hd
      obtain ⟨y, hy, rfl⟩ := List.mem_map.mp hd
      exact ⟨_, List.mem_map_of_mem ((hx y).mpr hy), moved_in (hl y hy)⟩
    · intro d hd
      obtain ⟨y, hy, rfl⟩ := List.mem_map.mp hd
      exact ⟨_, List.mem_map_of_mem ((hx y).mp hy), moved_in (hl y ((hx y).mp hy))⟩
  rcases parseD_run np with ⟨d, hu, eu⟩ | ⟨d, l, hu, hne, hin, eu⟩ | ⟨e, g, r, l, hu, hin, hg, hr, he, eu⟩ <;> rw [hu] at same
  · obtain ⟨d2, e2, _⟩ := same
    rw [e2] at h
    rcases parseD_run np' with ⟨d3, hS, eS⟩ | ⟨d3, l3, hS, hne, _, eS⟩ | ⟨e, g, r, l3, hS, _, _, _, _, eS⟩ <;> rw [hS] at h
    · exact ⟨fun _ => ⟨d3, eS⟩, by rw [eu]; rintro es ⟨⟩⟩
    · cases l3 with
      | nil => exact absurd rfl hne
      | cons x l3 => have := (h.2 x).mp (List.mem_cons_self ..); simp at this
    · exact h.elim
  · obtain ⟨d2, e2, _⟩ := same
    rw [e2] at h
    refine ⟨by rw [eu]; rintro ⟨_, ⟨⟩⟩, ?_⟩
    rw [eu]
    rintro es ⟨⟩
    rcases parseD_run np' with ⟨d3, hS, eS⟩ | ⟨d3, l3, hS, hne, _, eS⟩ | ⟨e, g, r, l3, hS, _, _, _, _, eS⟩ <;> rw [hS] at h
    · cases l with
      | nil => exact absurd rfl hne
      | cons x l => have := (h.2 x).mpr (Or.inr (List.mem_cons_self ..)); simp at this
    · exact ⟨_, eS, recs hin h.2⟩
    · exact h.elim
  · obtain ⟨e2, _⟩ := same
    rw [e2] at h
    refine ⟨by rw [eu]; rintro ⟨_, ⟨⟩⟩, ?_⟩
    rw [eu]
    rintro es ⟨⟩
    rcases parseD_run np' with ⟨d3, hS, eS⟩ | ⟨d3, l3, hS, hne, _, eS⟩ | ⟨e', g', r', l3, hS, _, _, _, _, eS⟩ <;> rw [hS] at h
    · exact h.elim
    · exact h.elim
    · obtain ⟨rfl, rfl, rfl, h⟩ := h
      refine ⟨_, eS, ?_⟩
      have hlast : Moved (utf8Len p) (Rec.diagnostic (utf8Len u) (e', located g' u r'))
          (Rec.diagnostic (utf8Len (p ++ u)) (e', located g' (p ++ u) r')) := by
        cases g' with
        | none => exact moved_comment hr (he rfl)
        | some y => exact moved_in (hg y rfl)
      obtain ⟨h1, h2⟩ := recs hin h
      rw [List.map_append, List.map_append]
      constructor
      · intro d hd
        rcases List.mem_append.mp hd with hd | hd
        · obtain ⟨d', h3, h4⟩ := h1 d hd
          exact ⟨d', List.mem_append_left _ h3, h4⟩
        · obtain rfl := List.mem_singleton.mp hd
          exact ⟨_, List.mem_append_right _ (List.mem_singleton.mpr rfl), hlast⟩
      · intro d hd
        rcases List.mem_append.mp hd with hd | hd
        · obtain ⟨d', h3, h4⟩ := h2 d hd
          exact ⟨d', List.mem_append_left _ h3, h4⟩
        · obtain rfl := List.mem_singleton.mp hd
          exact ⟨_, List.mem_append_right _ (List.mem_singleton.mpr rfl), hlast⟩

end

end Kdl
