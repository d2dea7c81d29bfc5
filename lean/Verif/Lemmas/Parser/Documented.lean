import Verif.Spec.Documented
import Verif.Lemmas.Parser.Concat
import Verif.Lemmas.Parser.EditText
/-
The documented grammar and the grammar of the parser.
-/

namespace Kdl
open Spec

theorem Spec.NSpace.app {r w u : Str} (h : NSpace (w ++ r) u) (h' : NSpace r w) : NSpace r (u ++ w) := by
  induction h with
  | nil => exact h'
  | space h1 _ ih => exact .space h1 ih
  | comment ha _ ih => simpa using NSpace.comment ha ih
  | cont hb hm _ ih => simpa using NSpace.cont hb (by simpa using hm) ih

theorem Spec.LSpace.app {r w u : Str} (h : LSpace (w ++ r) u) (h' : LSpace r w) : LSpace r (u ++ w) := by
  induction h with
  | nil => exact h'
  | space h1 _ ih => exact .space h1 ih
  | comment ha _ ih => simpa using LSpace.comment ha ih
  | cont hb hm _ ih => simpa using LSpace.cont hb (by simpa using hm) ih
  | newline hm _ ih => simpa using LSpace.newline (by simpa using hm) ih
  | line hm _ ih => simpa using LSpace.line (by simpa using hm) ih

/-- White space in front of `r` is white space in front of what does not begin with a line feed. -/
theorem Spec.NSpace.over {r w : Str} (h : NSpace r w) (hr : r ≠ []) {c : Char} {q : Str} (hc : c ≠ '\n') : NSpace (c :: q) w :=
  h.swap hr fun y e => hc (List.cons.inj e).1

section
variable [FloatIO]

/-- Entries, and slashdashed entries behind them. -/
theorem dentries_split {ds : List (SEntry Value)} {T : Str} (h : DEntries ds T) : ∃ T1 S, T = T1 ++ S ∧ EntriesText ds T1 ∧
    (S = [] ∨ ∃ w Q, S = w ++ Q ∧ NSpace Q w ∧ w ≠ [] ∧ SdEntries Q) := by
  induction h with
  | nil => exact ⟨[], [], rfl, .nil, Or.inl rfl⟩
  | @cons s w sl E T d ds hw hne hs hE _ ih =>
    obtain ⟨T1, S, rfl, h1, h2⟩ := ih
    cases hs with
    | no => exact ⟨w ++ (E ++ T1), S, by simp, .cons (.space hw hne) hE h1, h2⟩
    | @yes b hb =>
      cases h1 with
      | nil =>
        refine ⟨[], _, rfl, .nil, Or.inr ?_⟩
        rcases h2 with rfl | ⟨v, Q, rfl, h3, h4, h5⟩
        · exact ⟨w, '/' :: '-' :: (b ++ E), by simp, by simpa using hw, hne, .one hb hE⟩
        · exact ⟨w, '/' :: '-' :: (b ++ (E ++ (v ++ Q))), by simp, hw.over (by simp) (by decide), hne, .cons hb hE h3 h4 h5⟩
      | @cons u t T2 d2 ds2 hu ht h3 =>
        have hT : EntriesText (d2 :: ds2) (w ++ ('/' :: '-' :: b ++ E) ++ u ++ (t ++ T2)) := by
          refine .cons ?_ ht h3
          cases hu with
          | space hu hne2 =>
            have := EntryLead.slash (t := t) (w := w) (S := '/' :: '-' :: (b ++ E)) (by simpa using hw) hne (.one hb hE) hu hne2
            simpa using this
          | @slash u S v hu hne2 hS hv hne3 =>
            have := EntryLead.slash (t := t) (w := w) (S := '/' :: '-' :: (b ++ (E ++ (u ++ S))))
              (hw.over (by simp) (by decide)) hne (.cons hb hE hu hne2 hS) hv hne3
            simpa using this
        exact ⟨_, S, by simp, hT, h2⟩

/-- What the documented categories are in the grammar of the parser. -/
def Means : DCat → Str → Str → Prop
  | .children cs, _, C => ∃ D, C = '{' :: (D ++ ['}']) ∧ ∀ x, Text (.nodes cs) ('}' :: x) D
  | .skipped, _, S => S = [] ∨ ∃ w C, S = w ++ C ∧ w ≠ [] ∧ NSpace C w ∧ Text .blocks [] C
  | .block cs, _, C => (cs = none ∧ C = []) ∨ ∃ cs' w D, cs = some cs' ∧ C = w ++ '{' :: (D ++ ['}']) ∧ NSpace ['{'] w ∧
      ∀ x, Text (.nodes cs') ('}' :: x) D
  | .base s d, r, B => ∃ sl p B', B = sl ++ (p ++ B') ∧ DSlash (p ++ B') s sl ∧ NSpace B' p ∧ B' ≠ [] ∧
      ∀ w x, r = w ++ x → NSpace x w → Text (.node false d) x (B' ++ w)
  | .final ds, r, F => ∀ x, r = '}' :: x → Text (.nodes ds) r F
  | .nodes ds, r, N => ∀ es Z r', r = Z ++ r' → Text (.nodes es) r' Z → Text (.nodes (ds ++ es)) r' (N ++ Z)

theorem dterm_stop {m x : Str} (h : DTerm m x) : NodeStop (m ++ x) := by
  rcases h with ⟨b, nl, rfl, _⟩ | h | rfl | ⟨rfl, rfl⟩
  · exact Or.inr ⟨_, _, rfl, Or.inr (Or.inr (Or.inr ⟨rfl, _, rfl⟩))⟩
  · obtain ⟨c, q, rfl, hc⟩ := h.head
    exact Or.inr ⟨c, q ++ x, by simp, Or.inr (Or.inr (Or.inl hc))⟩
  · exact Or.inr ⟨_, _, rfl, Or.inr (Or.inl rfl)⟩
  · exact Or.inl rfl

theorem dterm_lead {m x : Str} (h : DTerm m x) (hs : m ≠ [';']) : Text .lead x m := by
  rcases h with h | h | h | ⟨rfl, rfl⟩
  · have := Text.leadSpace (r := x) (w := m) (L := []) (by simpa using LSpace.line (r := x) (t := []) (by simpa using h) .nil) .leadNil
    simpa using this
  · have := Text.leadSpace (r := x) (w := m) (L := []) (by simpa using LSpace.newline (r := x) (t := []) (by simpa using h) .nil) .leadNil
    simpa using this
  · exact absurd h hs
  · exact .leadNil

theorem nodes_nil {ds : List (SNode Value)} {r t : Str} (h : Text (.nodes ds) r t) (ht : t = []) : ds = [] := by
  cases h with
  | empty => rfl
  | items _ h' => exact absurd (List.append_eq_nil_iff.mp ht).2 (starts_ne (items_starts h'))

theorem blocks_head {c : Cat} {r C : Str} (h : Text c r C) : c = .blocks → ∃ q, C = '/' :: '-' :: q := by
  cases h with
  | blocksOne => intro _; exact ⟨_, rfl⟩
  | blocksCons => intro _; exact ⟨_, rfl⟩
  | _ => intro e; cases e

theorem blocks_app {c : Cat} {r C w C' : Str} (h : Text c r C) : c = .blocks → w ≠ [] → NSpace C' w → Text .blocks [] C' →
    Text .blocks [] (C ++ (w ++ C')) := by
  induction h with
  | blocksOne hb hD => intro _ hw hn hC; simpa using Text.blocksCons hb hD hn hw hC
  | @blocksCons b D v T cs hb hD hv hne hT _ ih =>
    intro _ hw hn hC
    have hT' := ih rfl hw hn hC
    obtain ⟨q, rfl⟩ := blocks_head hT rfl
    have := Text.blocksCons hb hD (hv.over (by simp) (c := '/') (q := '-' :: (q ++ (w ++ C'))) (by decide)) hne hT'
    simpa using this
  | _ => intro e; cases e

/-- A documented node in front of further nodes. -/
theorem means_node {s : Bool} {d : SNode Value} {es : List (SNode Value)} {r l B w m Z : Str}
    (hl : LSpace (B ++ (w ++ (m ++ (Z ++ r)))) l) (hB : Means (.base s d) (w ++ (m ++ (Z ++ r))) B) (hw : NSpace (m ++ (Z ++ r)) w)
    (hm : DTerm m (Z ++ r) ∨ (m = [] ∧ es = [] ∧ Z = [] ∧ ∃ x, r = '}' :: x)) (hs : s = true → m ≠ [';'])
    (hZ : Text (.nodes es) r Z) :
    Text (.nodes (shown s d ++ es)) r (l ++ (B ++ (w ++ (m ++ Z)))) := by
  obtain ⟨sl, p, B', rfl, hsl, hp, hne, hB⟩ := hB
  have hB := hB _ _ rfl hw
  have hp' : LSpace (B' ++ (w ++ (m ++ (Z ++ r)))) p := by
    have := (hp.lspace).swapH hne (nlImp_ext hne (w ++ (m ++ (Z ++ r))))
    exact this
  cases hsl with
  | no =>
    have hlp : LSpace (B' ++ (w ++ (m ++ (Z ++ r)))) (l ++ p) := LSpace.app (by simpa using hl) hp'
    have hit : Text (.items (d :: es)) r (B' ++ w ++ (m ++ Z)) := by
      have hterm (ht : TermText m (Z ++ r)) : Text (.items (d :: es)) r (B' ++ w ++ (m ++ Z)) := by
        cases hZ with
        | empty h => exact .lastTerm (by simpa using hB) ht h
        | items h h' => exact .cons (by simpa using hB) (by simpa using ht) h h'
      rcases hm with hm | ⟨rfl, rfl, rfl, _⟩
      · rcases hm with h | h | h | ⟨rfl, h⟩
        · exact hterm (Or.inr (Or.inr h))
        · exact hterm (Or.inr (Or.inl h))
        · exact hterm (Or.inl h)
        · obtain ⟨rfl, rfl⟩ := List.append_eq_nil_iff.mp h
          rw [nodes_nil hZ rfl]
          exact .last (by simpa using hB)
      · exact .last (by simpa using hB)
    have := Text.items (L := l ++ p) (by
      have := Text.leadSpace (r := B' ++ w ++ (m ++ Z) ++ r) (w := l ++ p) (L := []) (by simpa using hlp) .leadNil
      simpa using this) hit
    simpa [shown] using this
  | @yes b hb =>
    have hbp : LSpace (B' ++ w) (b ++ p) := by
      have h1 : LSpace B' (b ++ p) := LSpace.app hb hp.lspace
      exact h1.swapH hne (nlImp_ext hne w)
    have hstop : NodeStop (m ++ (Z ++ r)) := by
      rcases hm with hm | ⟨rfl, rfl, rfl, x, rfl⟩
      · exact dterm_stop hm
      · exact Or.inr ⟨_, _, rfl, Or.inl rfl⟩
    have hml : Text .lead (Z ++ r) m := by
      rcases hm with hm | ⟨rfl, _⟩
      · exact dterm_lead hm (hs rfl)
      · exact .leadNil
    have hnode := Text.leadNode (k := false) hbp hB (Or.inl hstop) hml
    have := Text.leadSpace (w := l) (by simpa using hl) hnode
    have := nodes_after_lead this hZ
    simpa [shown] using this

theorem skip_append {S S' : Str} (h : Means .skipped [] S) (h' : Means .skipped [] S') : Means .skipped [] (S ++ S') := by
  rcases h with rfl | ⟨w, C, rfl, hw, hn, hC⟩
  · simpa using h'
  · rcases h' with rfl | ⟨w', C', rfl, hw', hn', hC'⟩
    · exact Or.inr ⟨w, C, by simp, hw, hn, hC⟩
    · refine Or.inr ⟨w, C ++ (w' ++ C'), by simp, hw, ?_, ?_⟩
      · obtain ⟨q, rfl⟩ := blocks_head hC rfl
        exact hn.over (by simp) (by decide)
      · exact blocks_app hC rfl hw' hn' hC'

/-- What follows the entries of a node. -/
theorem mid_parts {Q S v x : Str} (hQ : Q = [] ∨ ∃ w P, Q = w ++ P ∧ NSpace P w ∧ w ≠ [] ∧ SdEntries P)
    (hS : S = [] ∨ ∃ w C, S = w ++ C ∧ w ≠ [] ∧ NSpace C w ∧ Text .blocks [] C) (hv : NSpace x v) :
    Text (.mid false) x (Q ++ (S ++ v)) := by
  rcases hQ with rfl | ⟨w, P, rfl, hw, hne, hP⟩
  · rcases hS with rfl | ⟨u, C, rfl, hne', hu, hC⟩
    · exact .midSpace hv
    · simpa using Text.midBlocks hu hne' hC hv
  · rcases hS with rfl | ⟨u, C, rfl, hne', hu, hC⟩
    · simpa using Text.midEntries hw hne hP hv
    · simpa using Text.midBoth hw hne hP hu hne' hC hv

theorem doc_means {c : DCat} {r t : Str} (h : Doc false c r t) : Means c r t := by
  induction h with
  | @children r N F cs es _ _ ihN ihF =>
    refine ⟨N ++ F, by simp, fun x => ?_⟩
    have hF := ihF r rfl
    have := ihN es F ('}' :: r) rfl hF
    exact this.swap (p := []) rfl (by simp) (SameHead.brace (Or.inr rfl) _ _)
  | skipNil => exact Or.inl rfl
  | @skip r w b C T cs hw hne hb _ _ ihC ihT =>
    obtain ⟨D, rfl, hD⟩ := ihC
    have hb' : LSpace ['{'] b := hb.swap (by simp) (by intro q e; cases e)
    right
    rcases ihT with rfl | ⟨v, Q, rfl, hv, hn, hQ⟩
    · exact ⟨w, _, by simp, hne, by simpa using hw, .blocksOne hb' hD⟩
    · refine ⟨w, '/' :: '-' :: (b ++ '{' :: (D ++ '}' :: (v ++ Q))), by simp, hne, hw.over (by simp) (by decide), .blocksCons hb' hD hn hv hQ⟩
  | noBlock => exact Or.inl ⟨rfl, rfl⟩
  | @block r w C cs hw hne _ ihC =>
    obtain ⟨D, rfl, hD⟩ := ihC
    exact Or.inr ⟨cs, w, D, rfl, rfl, hw.over (by simp) (by decide), hD⟩
  | @base s r sl tt nt T S C S' w nm ty ds cs hs ht hn hT _ _ _ hw ihS ihC ihS' =>
    obtain ⟨T1, Q, rfl, hT1, hQ⟩ := dentries_split hT
    have hS : Means .skipped [] S := ihS
    have hS' : Means .skipped [] S' := ihS'
    obtain ⟨p, u, htt, hp, hu⟩ : ∃ p u, tt = p ++ u ∧ NSpace (u ++ nt) p ∧ TyText nt ty u := by
      cases ht with
      | none hw => exact ⟨tt, [], by simp, hw, .none⟩
      | some hi hb ha hw => exact ⟨[], _, rfl, .nil, .some hi hb ha hw⟩
    have hnt : u ++ nt ≠ [] := fun e => hn.ne (List.append_eq_nil_iff.mp e).2
    refine ⟨sl, p, u ++ (nt ++ (T1 ++ Q ++ (S ++ (C ++ (S' ++ w))))), by simp [htt], ?_, ?_, ?_, ?_⟩
    · cases hs with
      | no => exact .no
      | yes hb =>
        refine .yes ?_
        have hne : tt ++ nt ≠ [] := fun e => hn.ne (List.append_eq_nil_iff.mp e).2
        have := hb.swapH hne (nlImp_ext hne (T1 ++ Q ++ (S ++ (C ++ (S' ++ w)))))
        simpa [htt] using this
    · have := hp.swapH hnt (nlImp_ext hnt (T1 ++ Q ++ (S ++ (C ++ (S' ++ w)))))
      simpa using this
    · intro e
      apply hnt
      have e := List.append_eq_nil_iff.mp e
      rw [e.1, (List.append_eq_nil_iff.mp e.2).1]; rfl
    · rintro v x rfl hv
      have hwv : NSpace x (w ++ v) := hw.app hv
      rcases ihC with ⟨rfl, rfl⟩ | ⟨cs', wb, D, rfl, rfl, hwb, hD⟩
      · have := Text.leaf hu hn hT1 (mid_parts hQ (skip_append hS hS') hwv)
        simpa using this
      · have h4 (y : Str) : Text (.mid false) ('{' :: y) (Q ++ (S ++ wb)) := mid_parts hQ hS (hwb.over (by simp) (by decide))
        have h6 : Text .tail x (S' ++ (w ++ v)) := by
          rcases hS' with rfl | ⟨u', C', rfl, _, hu', hC'⟩
          · exact .tailSpace hwv
          · simpa using Text.tailBlocks hu' hC' hwv
        have := Text.block (k := false) hu hn hT1 h4 hD h6
        simpa using this
  | noFinal =>
    rintro x rfl
    exact .empty .leadNil
  | @final s r B w m d _ hw hm hs ihB =>
    rintro x rfl
    have := means_node (r := '}' :: x) (Z := []) (es := []) (l := []) .nil ihB hw (by
      rcases hm with rfl | hm
      · exact Or.inr ⟨rfl, rfl, rfl, x, rfl⟩
      · exact Or.inl hm) (fun h => hs h rfl) (.empty .leadNil)
    simpa using this
  | noNode hl =>
    rintro es Z r' rfl hZ
    have := Text.leadSpace (L := []) (by simpa using hl) .leadNil
    simpa using nodes_after_lead this hZ
  | @node s r l B w m T d ds hl _ hw hm hs _ ihB ihT =>
    rintro es Z r' rfl hZ
    have h1 := ihT es Z r' rfl hZ
    have := means_node (r := r') (Z := T ++ Z) (es := ds ++ es) (l := l) (by simpa using hl) (by simpa using ihB) (by simpa using hw)
      (Or.inl (by simpa using hm)) (fun h => hs h rfl) h1
    simpa using this

end

end Kdl
