import Verif.Lemmas.Parser.ExactDoc
import Verif.Lemmas.Parser.Runs
import Verif.Lemmas.ScanFmt
/-
The texts between the parts of a parsed document are white space, unless they have a
slash or a backslash (used for C83).
-/

namespace Kdl
open Spec

/-- No slash and no backslash. -/
def Spec.Unslashed (t : Str) : Prop := '/' ∉ t ∧ '\\' ∉ t

theorem Spec.Unslashed.of_append {a b : Str} (h : Unslashed (a ++ b)) : Unslashed a ∧ Unslashed b := by
  simp only [Unslashed, List.mem_append, not_or] at h ⊢
  exact ⟨⟨h.1.1, h.2.1⟩, h.1.2, h.2.2⟩

theorem newline_isWhitespace {c : Char} (h : Newline c) : isWhitespace c = true := by
  unfold Newline newlineCodes at h
  unfold isWhitespace
  simp only [List.mem_cons, List.not_mem_nil, or_false] at h
  rcases h with h | h | h | h | h | h | h <;> simp [h]

theorem newlineSeq_ws {m x : Str} (h : NewlineSeq m x) : AllWs m := by
  rcases h with rfl | ⟨c, rfl, hc, _⟩
  · decide
  · exact AllWs.cons (newline_isWhitespace hc) AllWs.nil

theorem nspace_pale {r t : Str} (h : NSpace r t) (hu : Unslashed t) : AllWs t := by
  induction h with
  | nil => exact AllWs.nil
  | space h1 _ ih => exact AllWs.cons (space_isWhitespace h1) (ih (Unslashed.of_append (a := [_]) hu).2)
  | comment => exact absurd (List.mem_cons_self ..) hu.1
  | cont => exact absurd (List.mem_cons_self ..) hu.2

theorem lspace_pale {r t : Str} (h : LSpace r t) (hu : Unslashed t) : AllWs t := by
  induction h with
  | nil => exact AllWs.nil
  | space h1 _ ih => exact AllWs.cons (space_isWhitespace h1) (ih (Unslashed.of_append (a := [_]) hu).2)
  | comment => exact absurd (List.mem_cons_self ..) hu.1
  | cont => exact absurd (List.mem_cons_self ..) hu.2
  | newline hm _ ih => exact (newlineSeq_ws hm).append (ih hu.of_append.2)
  | line hm =>
    obtain ⟨b, nl, rfl, _⟩ := hm
    exact absurd (List.mem_cons_self ..) hu.1

section
variable [FloatIO]

theorem rep_sub {α : Type} {p : P α} (hp : Sfx p) {x r : Str} {l : List α} (h : Rep p x l r) : ∃ t, x = t ++ r := by
  induction h with
  | nil _ => exact ⟨[], rfl⟩
  | cons h _ _ ih =>
    obtain ⟨t, rfl⟩ := hp _ _ _ h
    obtain ⟨l', rfl⟩ := ih
    exact ⟨t ++ l', by simp⟩

theorem lead_pale {total : Nat} {s q : Str} {us : List Unit}
    (h : Rep (lineSpace <+> (do slashdash; void (baseNode total))) s us q) : ∀ l, s = l ++ q → Unslashed l → AllWs l := by
  induction h with
  | nil _ =>
    intro l e _
    have := List.append_cancel_right (as := []) (e : [] ++ _ = l ++ _)
    rw [← this]; exact AllWs.nil
  | @cons s x r a as h hl ht ih =>
    rintro l rfl hu
    have hsfx : Sfx (lineSpace <+> (do slashdash; void (baseNode total))) := by
      have := (Strict.baseNode total).sfx
      psolve
    rcases alt_ok.mp h with h1 | ⟨_, h1⟩
    · obtain ⟨w, e, _, hw⟩ := lineSpace_inv h1
      obtain ⟨l', rfl⟩ : ∃ l', x = l' ++ r := rep_sub hsfx ht
      have e' : l = w ++ l' := List.append_cancel_right (by rw [e]; simp : l ++ r = (w ++ l') ++ r)
      subst e'
      have := hw (l' ++ r) [] rfl .nil
      rw [List.append_nil] at this
      exact (lspace_pale this hu.of_append.1).append (ih l' rfl hu.of_append.2)
    · obtain ⟨_, y, h2, h3⟩ := bind_ok.mp h1
      obtain ⟨b, e, _⟩ := slashdash_inv h2
      cases l with
      | nil =>
        exfalso
        obtain ⟨l', rfl⟩ := rep_sub hsfx ht
        simp at hl
        omega
      | cons c l =>
        obtain ⟨rfl, _⟩ := List.cons.inj (e : c :: (l ++ r) = _)
        exact absurd (List.mem_cons_self ..) hu.1

theorem leadingItems_pale {total : Nat} {s q l : Str} (h : leadingItems (baseNode total) s = .ok l q) (hu : Unslashed l) :
    AllWs l := by
  obtain ⟨e, ⟨us, h⟩, _⟩ := leadingItems_inv h
  exact lead_pale h l e hu

theorem blocks_slash {r C : Str} (h : Text .blocks r C) : '/' ∈ C := by
  cases h <;> exact List.mem_cons_self ..

theorem sdEnd_slash {k : Bool} {S : Str} (h : SdEnd k S) : '/' ∈ S := by
  cases h <;> exact List.mem_cons_self ..

theorem mid_pale {r w : Str} (h : Text (.mid false) r w) (hu : Unslashed w) : AllWs w := by
  cases h with
  | midSpace h => exact nspace_pale h hu
  | midEntries _ _ h2 _ => exact absurd (by simp [sdEnd_slash h2]) hu.1
  | midBlocks _ _ h2 _ => exact absurd (by simp [blocks_slash h2]) hu.1
  | midBoth _ _ h2 _ _ _ _ => exact absurd (by simp [sdEnd_slash h2]) hu.1

theorem tailP_pale {total : Nat} {b : Bool} {s r bt t : Str} (h : tailP total (baseNode total) b s = .ok (bt, t) r) (hu : Unslashed bt) :
    AllWs bt := by
  have hB : ∀ N, BlocksOk total N := fun N => blocksOk fun x y d hx h => nodes_exact (baseOk total N) hx h (Or.inr ⟨_, rfl⟩)
  have hst := Strict.baseNode total
  unfold tailP at h
  obtain ⟨bt', q, h1, h⟩ := bind_ok.mp h
  obtain ⟨t', q', _, h⟩ := bind_ok.mp h
  obtain ⟨e, _⟩ := pure_ok.mp h
  simp only [Prod.mk.injEq] at e
  obtain ⟨rfl, rfl⟩ := e
  unfold tailText at h1
  split at h1
  · obtain ⟨e, o, h2⟩ := takeP_inv (Strict.slashdashedChildrenF total hst).sfx.opt h1
    rcases opt_ok.mp h2 with ⟨u, _, h3⟩ | ⟨_, rfl, _⟩
    · obtain ⟨w, C, e', _, _, hC⟩ := hB _ _ _ _ (Nat.le_refl _) h3
      have : bt = w ++ C := List.append_cancel_right (by rw [← e, e']; simp)
      subst this
      exact absurd (by simp [blocks_slash hC]) hu.1
    · have : [] = bt := List.append_cancel_right (e : [] ++ _ = bt ++ _)
      rw [← this]; exact AllWs.nil
  · obtain ⟨e, u, h2⟩ := takeP_inv (Sfx.beforeNodeChildrenF total hst) h1
    obtain ⟨w, e', _, hw, _⟩ := mid_exact (hB _) h2
    have : bt = w := List.append_cancel_right (by rw [← e, e'])
    subst this
    exact mid_pale hw hu
end
end Kdl
