import Verif.Spec.Breaks
import Verif.Lemmas.Parser.EditText
import Verif.Lemmas.Parser.Concat
/-
Exchanging line breaks keeps texts in the grammar.
-/

namespace Kdl
open Spec

/-- What a character in front of `x` becomes: a line break becomes `κ` of what
follows. -/
def brkOne (κ : Str → Str) (c : Char) (x : Str) : Str :=
  if c = '\r' ∧ x.head? = some '\n' then [] else if Newline c then κ x else [c]

/-- What a text in front of `k` becomes. -/
def brk (κ : Str → Str) (k : Str) : Str → Str
  | [] => []
  | c :: t => brkOne κ c (t ++ k) ++ brk κ k t

section
variable {κ : Str → Str}

theorem brk_app (k a b : Str) : brk κ k (a ++ b) = brk κ (b ++ k) a ++ brk κ k b := by
  induction a with
  | nil => rfl
  | cons c a ih => simp only [List.cons_append, brk, ih, List.append_assoc]

theorem brk_cons {c : Char} (hc : ¬ Newline c) (k t : Str) : brk κ k (c :: t) = c :: brk κ k t := by
  have : c ≠ '\r' := by rintro rfl; exact hc (by decide)
  simp [brk, brkOne, hc, this]

theorem brk_plain {t : Str} (h : ∀ c ∈ t, ¬ Newline c) (k : Str) : brk κ k t = t := by
  induction t with
  | nil => rfl
  | cons c t ih => rw [brk_cons (h c (by simp)), ih fun c hc => h c (by simp [hc])]

theorem brk_spaces {t : Str} (h : ∀ c ∈ t, Space c) (k : Str) : brk κ k t = t := brk_plain (fun c hc => space_not_newline (h c hc)) k

theorem brk_newline {m x k : Str} (h : NewlineSeq m x) (hk : NlImp k x) : brk κ k m = κ k := by
  rcases h with rfl | ⟨c, rfl, hc, hx⟩
  · simp [brk, brkOne, show Newline '\n' by decide]
  · have : ¬ (c = '\r' ∧ k.head? = some '\n') := by
      rintro ⟨e, hh⟩
      cases k with
      | nil => cases hh
      | cons a k =>
        obtain ⟨q', e'⟩ := hk k (by rw [← Option.some.inj hh])
        exact hx e q' e'
    simp [brk, brkOne, hc, this]

/-- Every line break that `κ` puts in is one in front of what follows. -/
def Breaks (κ : Str → Str) : Prop := ∀ k, NewlineSeq (κ k) (brk κ [] k)

theorem brk_full (t k : Str) : brk κ [] (t ++ k) = brk κ k t ++ brk κ [] k := by rw [brk_app, List.append_nil]

theorem brk_seq (hκ : Breaks κ) {k x : Str} (hx : NlImp x (brk κ [] k)) : NewlineSeq (κ k) x := by
  rcases hκ k with h | ⟨c, h, h1, h2⟩
  · exact Or.inl h
  · refine Or.inr ⟨c, h, h1, fun e q eq => ?_⟩
    obtain ⟨q', e'⟩ := hx q eq
    exact h2 e q' e'

theorem nlImp_self (a b : Str) : NlImp a (a ++ b) := by
  rintro q rfl
  exact ⟨_, rfl⟩

theorem brk_seq_app (hκ : Breaks κ) (t k : Str) : NewlineSeq (κ (t ++ k)) (brk κ k t) :=
  brk_seq hκ (by rw [brk_full]; exact nlImp_self _ _)

theorem break_head (hκ : Breaks κ) (k : Str) : ∃ c q, κ k = c :: q ∧ Newline c := by
  rcases hκ k with h | ⟨c, h, h1, h2⟩
  · exact ⟨_, _, h, by decide⟩
  · exact ⟨_, _, h, h1⟩

theorem break_all (hκ : Breaks κ) (k : Str) : ∀ c ∈ κ k, Newline c := by
  rcases hκ k with h | ⟨c, h, h1, h2⟩ <;> rw [h] <;> simp
  · decide
  · exact h1

/-- The text does not begin with a line feed. -/
def NoLf (k : Str) : Prop := ∀ q, k ≠ '\n' :: q

theorem NoLf.imp {k : Str} (h : NoLf k) (x : Str) : NlImp k x := fun q e => absurd e (h q)

theorem noLf_cons {c : Char} (h : ¬ Newline c) (q : Str) : NoLf (c :: q) := by
  intro p e
  obtain ⟨rfl, _⟩ := List.cons.inj e
  exact h (by decide)

theorem nlImp_app {k r : Str} (h : NlImp k r) (t : Str) : NlImp (t ++ k) (t ++ r) := by
  cases t with
  | nil => exact h
  | cons c t =>
    intro q e
    obtain ⟨rfl, _⟩ := List.cons.inj e
    exact ⟨_, rfl⟩

theorem nlImp_noLf {k : Str} (h : NoLf k) (t : Str) : NlImp (t ++ k) t := by
  have := nlImp_app (h.imp []) t
  rwa [List.append_nil] at this

/-- Behind a text with a first character, what follows does not matter. -/
theorem nlImp_front {t : Str} (h : t ≠ []) (a b : Str) : NlImp (t ++ a) (t ++ b) := by
  cases t with
  | nil => exact absurd rfl h
  | cons c t =>
    intro q e
    obtain ⟨rfl, _⟩ := List.cons.inj e
    exact ⟨_, rfl⟩

theorem brk_ne (hκ : Breaks κ) {k : Str} (hk : NoLf k) : ∀ {t : Str}, t ≠ [] → brk κ k t ≠ []
  | [], h => absurd rfl h
  | c :: t, _ => by
    intro e
    obtain ⟨e1, e2⟩ := List.append_eq_nil_iff.mp (show brkOne κ c (t ++ k) ++ brk κ k t = [] from e)
    cases t with
    | cons a t => exact brk_ne hκ hk (by simp) e2
    | nil =>
      simp only [brkOne, List.nil_append] at e1
      split at e1
      · rename_i h
        cases k with
        | nil => cases h.2
        | cons a k => exact hk k (by rw [← Option.some.inj h.2])
      · split at e1
        · obtain ⟨_, _, e, _⟩ := break_head hκ k
          rw [e] at e1; cases e1
        · cases e1

/-- A first character that is not a line break is kept, and comes from the text. -/
theorem brk_head (hκ : Breaks κ) {k t q : Str} {c : Char} (hc : ¬ Newline c) (h : brk κ k t = c :: q) :
    ∃ q', t = c :: q' ∧ brk κ k q' = q := by
  induction t with
  | nil => cases h
  | cons a t ih =>
    by_cases ha : Newline a
    · exfalso
      simp only [brk, brkOne] at h
      split at h
      · rename_i h'
        cases t with
        | nil => cases h
        | cons b t =>
          obtain rfl : b = '\n' := Option.some.inj h'.2
          obtain ⟨q', e, _⟩ := ih h
          exact hc (by rw [← (List.cons.inj e).1]; decide)
      · obtain ⟨d, p, e, hd⟩ := break_head hκ (t ++ k)
        rw [e] at h
        exact hc (by rw [← (List.cons.inj h).1]; exact hd)
    · rw [brk_cons ha] at h
      obtain ⟨rfl, rfl⟩ := List.cons.inj h
      exact ⟨t, rfl, rfl⟩

theorem brk_mem {k t : Str} {c : Char} (hc : ¬ Newline c) (h : c ∈ t) : c ∈ brk κ k t := by
  obtain ⟨a, b, rfl⟩ := List.append_of_mem h
  rw [brk_app, brk_cons hc]
  simp

theorem brk_blank (hκ : Breaks κ) {k t : Str} (h : ∀ c ∈ t, Blank c) : ∀ c ∈ brk κ k t, Blank c := by
  induction t with
  | nil => exact h
  | cons a t ih =>
    intro c hc
    rcases List.mem_append.mp (show c ∈ brkOne κ a (t ++ k) ++ brk κ k t from hc) with hc | hc
    · simp only [brkOne] at hc
      split at hc
      · cases hc
      · split at hc
        · exact Or.inr (break_all hκ _ c hc)
        · rw [List.mem_singleton.mp hc]; exact h a (by simp)
    · exact ih (fun c hc => h c (by simp [hc])) c hc

theorem brk_noBlank (hκ : Breaks κ) {k t : Str} (h : NoBlank t) : NoBlank (brk κ k t) := by
  cases t with
  | nil => exact h
  | cons a t =>
    have ha : ¬ Newline a := fun hn => h a t rfl (Or.inr hn)
    rw [brk_cons ha]
    intro c q e
    obtain ⟨rfl, _⟩ := List.cons.inj e
    exact h _ t rfl

/-! ### Strings -/

theorem noBlank_lf {t k : Str} (h : NoBlank t) (hk : NoLf k) : NoLf (t ++ k) := by
  cases t with
  | nil => exact hk
  | cons c t => exact noLf_cons (fun hn => h c t rfl (Or.inr hn)) _

theorem escapes_plain {e c : Char} (h : (e, c) ∈ escapes) : ¬ Newline e := by
  have : ∀ p ∈ escapes, ¬ Newline p.1 := by decide
  exact this _ h

theorem digit_plain {r : Nat} {c : Char} (h : IsDigit r c) : ¬ Newline c := by
  intro hn
  obtain ⟨d, h, _⟩ := h
  have h : (digit c).isSome = true := by rw [h]; rfl
  have hc : c.toNat ∈ newlineCodes := hn
  have : c ∈ newlineCodes.map Char.ofNat := by
    refine List.mem_map.mpr ⟨_, hc, ?_⟩
    simp
  revert h
  have hall : ∀ c ∈ newlineCodes.map Char.ofNat, ¬ (digit c).isSome = true := by decide
  exact hall c this

theorem Spec.Quoted.brk (hκ : Breaks κ) {t v : Str} (h : Quoted t v) {k : Str} (hk : NoLf k) : Quoted (brk κ k t) v := by
  induction h with
  | nil => exact .nil
  | plain h1 h2 h3 h4 _ ih => rw [brk_cons h3]; exact .plain h1 h2 h3 h4 ih
  | escape h1 _ ih => rw [brk_cons (by decide), brk_cons (escapes_plain h1)]; exact .escape h1 ih
  | @unicode hx t v c h1 h2 h3 h4 _ ih =>
    rw [brk_cons (by decide), brk_cons (by decide), brk_cons (by decide), brk_app, brk_plain fun c hc => digit_plain (h3 c hc),
      brk_cons (by decide)]
    exact .unicode h1 h2 h3 h4 ih
  | @space w t v h1 h2 h3 _ ih =>
    rw [brk_cons (by decide), brk_app]
    exact .space (brk_ne hκ (noBlank_lf h3 hk) h1) (brk_blank hκ h2) (brk_noBlank hκ h3) ih

theorem Spec.MLine.brk (hκ : Breaks κ) {t v : Str} (h : MLine t v) {k : Str} : MLine (brk κ k t) v := by
  induction h with
  | nil => exact .nil
  | plain h1 h2 h3 h4 _ ih => rw [brk_cons h3]; exact .plain h1 h2 h3 h4 ih
  | quote h1 _ ih =>
    rw [brk_cons (by decide)]
    refine .quote (fun q e => ?_) ih
    obtain ⟨q', e1, e⟩ := brk_head hκ (by decide) e
    obtain ⟨q'', e2, _⟩ := brk_head hκ (by decide) e
    exact h1 q'' (by rw [e1, e2])
  | escape h1 _ ih => rw [brk_cons (by decide), brk_cons (escapes_plain h1)]; exact .escape h1 ih
  | @unicode hx t v c h1 h2 h3 h4 _ ih =>
    rw [brk_cons (by decide), brk_cons (by decide), brk_cons (by decide), brk_app, brk_plain fun c hc => digit_plain (h3 c hc),
      brk_cons (by decide)]
    exact .unicode h1 h2 h3 h4 ih
  | @space w t v h0 h1 h2 h3 _ ih =>
    rw [brk_cons (by decide), brk_app]
    cases t with
    | nil => exact absurd rfl h0
    | cons c t =>
      have hc : ¬ Newline c := fun hn => h3 c t rfl (Or.inr hn)
      refine .space ?_ (brk_ne hκ (noLf_cons hc _) h1) (brk_blank hκ h2) (brk_noBlank hκ h3) ih
      rw [brk_cons hc]; simp

theorem Spec.Escapes.brk (hκ : Breaks κ) {t : Str} (h : Escapes t) {k : Str} (hk : NoLf k) : Escapes (brk κ k t) := by
  induction h with
  | nil => exact .nil
  | @cons w t h1 h2 h3 _ ih =>
    rw [brk_cons (by decide), brk_app]
    exact .cons (brk_ne hκ (noBlank_lf h3 hk) h1) (brk_blank hκ h2) (brk_noBlank hκ h3) ih

/-- Newlines in a line of a string are escaped. -/
theorem mline_plain {c x : Str} (h : MLine c x) : (∀ a ∈ c, ¬ Newline a) ∨ '\\' ∈ c := by
  induction h with
  | nil => exact Or.inl (by simp)
  | plain _ _ h3 _ _ ih =>
    rcases ih with ih | ih
    · exact Or.inl fun a ha => (List.mem_cons.mp ha).elim (fun e => e ▸ h3) (ih a)
    · exact Or.inr (by simp [ih])
  | quote _ _ ih =>
    rcases ih with ih | ih
    · exact Or.inl fun a ha => (List.mem_cons.mp ha).elim (fun e => e ▸ (by decide)) (ih a)
    · exact Or.inr (by simp [ih])
  | escape => exact Or.inr (by simp)
  | unicode => exact Or.inr (by simp)
  | space => exact Or.inr (by simp)

theorem Spec.Multi.brk (hκ : Breaks κ) {pre t : Str} {ls : List Str} (hp : ∀ c ∈ pre, Space c) (h : Multi pre t ls) {k : Str}
    (hk : NoLf k) : Multi pre (brk κ k t) ls := by
  induction h with
  | close h => rw [brk_app, brk_spaces hp]; exact .close (h.brk hκ hk)
  | empty h1 h2 _ ih =>
    rw [brk_app, brk_app, brk_spaces h1, brk_newline h2 (nlImp_noLf hk _)]
    exact .empty h1 (brk_seq_app hκ _ _) ih
  | @line c x nl t ls h1 h2 h3 _ ih =>
    rw [brk_app, brk_app, brk_app, brk_spaces hp, brk_newline h3 (nlImp_noLf hk _)]
    refine .line (h1.brk hκ) ?_ (brk_seq_app hκ _ _) ih
    rcases mline_plain h1 with h | h
    · rw [brk_plain h]; exact h2
    · exact ⟨'\\', brk_mem (by decide) h, by decide⟩

theorem Spec.RawMulti.brk (hκ : Breaks κ) {n : Nat} {pre t : Str} {ls : List Str} (hp : ∀ c ∈ pre, Space c)
    (h : RawMulti n pre t ls) {k : Str} (hk : NoLf k) : RawMulti n pre (brk κ k t) ls := by
  induction h with
  | close => rw [brk_spaces hp]; exact .close
  | empty h1 h2 _ ih =>
    rw [brk_app, brk_app, brk_spaces h1, brk_newline h2 (nlImp_noLf hk _)]
    exact .empty h1 (brk_seq_app hκ _ _) ih
  | @line c nl t ls h0 h1 h2 h3 _ ih =>
    rw [brk_app, brk_app, brk_app, brk_spaces hp, brk_newline h3 (nlImp_noLf hk _), brk_plain fun a ha => (h0 a ha).1]
    exact .line h0 h1 h2 (brk_seq_app hκ _ _) ih

theorem hashes_plain (n : Nat) : ∀ c ∈ hashes n, ¬ Newline c := by
  intro c hc
  rw [List.eq_of_mem_replicate hc]
  decide

theorem Spec.StrText.brk (hκ : Breaks κ) {t v : Str} (h : StrText t v) (k : Str) : StrText (brk κ k t) v := by
  cases h with
  | bare h => rw [brk_plain fun c hc => (h.2.1 c hc).2.1]; exact .bare h
  | quoted h =>
    rw [brk_cons (by decide), brk_app, brk_plain (t := ['"']) (by decide)]
    exact .quoted (h.brk hκ (noLf_cons (by decide) _))
  | multi h0 h1 h =>
    rw [brk_cons (by decide), brk_cons (by decide), brk_cons (by decide), brk_app, brk_app, brk_plain (t := ['"', '"', '"']) (by decide),
      brk_newline h0 (by rw [List.append_assoc]; exact nlImp_noLf (noLf_cons (by decide) _) _)]
    exact .multi (by rw [List.append_assoc]; exact brk_seq_app hκ _ _) h1 (h.brk hκ h1 (noLf_cons (by decide) _))
  | @raw n t h =>
    rw [brk_app, brk_plain (hashes_plain _), brk_cons (by decide), brk_app, brk_plain fun a ha => (h.1 a ha).1, brk_cons (by decide),
      brk_plain (hashes_plain _)]
    exact .raw h
  | @rawMulti n nl pre t ls h0 h1 h h2 =>
    rw [brk_app, brk_plain (hashes_plain _), brk_cons (by decide), brk_cons (by decide), brk_cons (by decide), brk_app, brk_app,
      brk_cons (by decide), brk_cons (by decide), brk_cons (by decide), brk_plain (hashes_plain _),
      brk_newline h0 (by rw [List.append_assoc]; exact nlImp_noLf (noLf_cons (by decide) _) _)]
    exact .rawMulti (by rw [List.append_assoc]; exact brk_seq_app hκ _ _) h1 (h.brk hκ h1 (noLf_cons (by decide) _)) h2

/-! ### Space -/

theorem Spec.CBody.brk (hκ : Breaks κ) {t : Str} (h : CBody t) : ∀ {k : Str}, NoLf k → CBody (brk κ k t) := by
  have anyc : ∀ {w t : Str}, (∀ c ∈ w, Newline c) → CBody t → CBody (w ++ t) := by
    intro w t hw ht
    induction w with
    | nil => exact ht
    | cons c w ih =>
      have hc := hw c (by simp)
      refine .char ?_ ?_ (ih fun c h => hw c (by simp [h]))
      · rintro rfl; revert hc; decide
      · rintro rfl; revert hc; decide
  induction h with
  | nil => intro k _; exact .nil
  | @char c t h1 h2 _ ih =>
    intro k hk
    by_cases hc : Newline c
    · simp only [Kdl.brk, brkOne]
      split
      · exact ih hk
      · exact anyc (break_all hκ _) (ih hk)
    · rw [brk_cons hc]; exact .char h1 h2 (ih hk)
  | star h1 _ ih =>
    intro k hk
    rw [brk_cons (by decide)]
    refine .star (fun q e => ?_) (ih hk)
    obtain ⟨q', e, _⟩ := brk_head hκ (by decide) e
    exact h1 q' e
  | slash h1 h2 _ ih =>
    intro k hk
    rw [brk_cons (by decide)]
    refine .slash (brk_ne hκ hk h1) (fun q e => ?_) (ih hk)
    obtain ⟨q', e, _⟩ := brk_head hκ (by decide) e
    exact h2 q' e
  | nest _ _ ih1 ih2 =>
    intro k hk
    rw [brk_cons (by decide), brk_cons (by decide), brk_app, brk_cons (by decide), brk_cons (by decide)]
    exact .nest (ih1 (noLf_cons (by decide) _)) (ih2 hk)

theorem brk_comment (hκ : Breaks κ) {a : Str} (h : CBody a) (t k : Str) : ∃ a', CBody a' ∧
    brk κ k ('/' :: '*' :: (a ++ '*' :: '/' :: t)) = '/' :: '*' :: (a' ++ '*' :: '/' :: brk κ k t) := by
  refine ⟨_, h.brk hκ (noLf_cons (c := '*') (by decide) ('/' :: t ++ k)), ?_⟩
  rw [brk_cons (by decide), brk_cons (by decide), brk_app, brk_cons (by decide), brk_cons (by decide)]
  rfl

theorem Spec.WSeq.brk (hκ : Breaks κ) {t : Str} (h : WSeq t) (k : Str) : WSeq (brk κ k t) := by
  induction h with
  | nil => exact .nil
  | space h1 _ ih => rw [brk_cons (space_not_newline h1)]; exact .space h1 ih
  | comment ha _ ih =>
    obtain ⟨a', h1, e⟩ := brk_comment hκ ha _ k
    rw [e]; exact .comment h1 ih

/-- `Near κ k r r'`: the grammar sees `r` behind a text that stands in front of `k`, and `r'` behind what it becomes. -/
structure Near (κ : Str → Str) (k r r' : Str) : Prop where
  old : NlImp k r
  new : NlImp r' (brk κ [] k)
  nil : r = [] → r' = []

theorem Near.app {k r r' : Str} (h : Near κ k r r') (t : Str) : Near κ (t ++ k) (t ++ r) (brk κ k t ++ r') := by
  refine ⟨nlImp_app h.old t, ?_, fun e => ?_⟩
  · rw [brk_full]; exact nlImp_app h.new _
  · obtain ⟨rfl, e⟩ := List.append_eq_nil_iff.mp e
    exact h.nil e

theorem Near.self {t : Str} (h : t ≠ []) (k : Str) : Near κ (t ++ k) t (brk κ k t) := by
  refine ⟨?_, ?_, fun e => absurd e h⟩
  · have := nlImp_front h k []
    rwa [List.append_nil] at this
  · rw [brk_full]; exact nlImp_self _ _

theorem Near.self' {t : Str} (h : t ≠ []) (x k : Str) : Near κ ((t ++ x) ++ k) t (brk κ (x ++ k) t) := by
  rw [List.append_assoc]; exact .self h _

theorem Near.char {c : Char} (hc : ¬ Newline c) (q x x' : Str) : Near κ (c :: q) (c :: x) (c :: x') :=
  ⟨(noLf_cons hc _).imp _, (noLf_cons hc _).imp _, fun e => absurd e (by simp)⟩

theorem Spec.LineComment.brk (hκ : Breaks κ) {m x k x' : Str} (h : LineComment m x) (hk : Near κ k x x') :
    LineComment (brk κ k m) x' := by
  obtain ⟨b, nl, rfl, hb, h⟩ := h
  rw [brk_cons (by decide), brk_cons (by decide), brk_app, brk_plain hb]
  refine ⟨b, _, rfl, hb, ?_⟩
  rcases h with h | ⟨rfl, h⟩
  · rw [brk_newline h hk.old]; exact Or.inl (brk_seq hκ hk.new)
  · exact Or.inr ⟨rfl, hk.nil h⟩

theorem Spec.LineEnd.brk (hκ : Breaks κ) {m x k x' : Str} (h : LineEnd m x) (hk : Near κ k x x') : LineEnd (brk κ k m) x' := by
  rcases h with h | h | ⟨rfl, h⟩
  · rw [brk_newline h hk.old]; exact Or.inl (brk_seq hκ hk.new)
  · exact Or.inr (Or.inl (h.brk hκ hk))
  · exact Or.inr (Or.inr ⟨rfl, hk.nil h⟩)

theorem Spec.NSpace.brk (hκ : Breaks κ) {r w k r' : Str} (h : NSpace r w) (hk : Near κ k r r') : NSpace r' (brk κ k w) := by
  induction h with
  | nil => exact .nil
  | space h1 _ ih => rw [brk_cons (space_not_newline h1)]; exact .space h1 ih
  | @comment a t ha _ ih =>
    obtain ⟨a', h1, e⟩ := brk_comment hκ ha t k
    rw [e]; exact .comment h1 ih
  | cont hb hm _ ih =>
    rw [brk_cons (by decide), brk_app, brk_app]
    exact .cont (hb.brk hκ _) (hm.brk hκ (hk.app _)) ih

theorem Spec.LSpace.brk (hκ : Breaks κ) {r w k r' : Str} (h : LSpace r w) (hk : Near κ k r r') : LSpace r' (brk κ k w) := by
  induction h with
  | nil => exact .nil
  | space h1 _ ih => rw [brk_cons (space_not_newline h1)]; exact .space h1 ih
  | @comment a t ha _ ih =>
    obtain ⟨a', h1, e⟩ := brk_comment hκ ha t k
    rw [e]; exact .comment h1 ih
  | cont hb hm _ ih =>
    rw [brk_cons (by decide), brk_app, brk_app]
    exact .cont (hb.brk hκ _) (hm.brk hκ (hk.app _)) ih
  | newline hm _ ih =>
    rw [brk_app, brk_newline hm (hk.app _).old]
    exact .newline (brk_seq hκ (hk.app _).new) ih
  | line hm _ ih =>
    rw [brk_app]
    exact .line (hm.brk hκ (hk.app _)) ih

theorem brk_nspace_ne {r w : Str} (k : Str) (h : NSpace r w) (hw : w ≠ []) : brk κ k w ≠ [] := by
  cases h with
  | nil => exact absurd rfl hw
  | space h1 _ => rw [brk_cons (space_not_newline h1)]; simp
  | comment => rw [brk_cons (by decide)]; simp
  | cont => rw [brk_cons (by decide)]; simp

/-! ### Values and entries -/

theorem sign_plain {t : Str} {k : Int} (h : Sign t k) : ∀ c ∈ t, ¬ Newline c := by cases h <;> decide

theorem digits_plain {n : Nat} {t : Str} (h : ∀ x ∈ t, x = '_' ∨ IsDigit n x) : ∀ c ∈ t, ¬ Newline c := by
  intro c hc
  rcases h c hc with rfl | h
  · decide
  · exact digit_plain h

theorem group_plain {t : Str} (h : Group t) : ∀ c ∈ t, ¬ Newline c := by
  obtain ⟨c, t, rfl, h1, h2, _⟩ := h
  intro x hx
  rcases List.mem_cons.mp hx with rfl | hx
  · exact digit_plain h1
  · exact digits_plain h2 x hx

variable [FloatIO]

theorem numText_plain {t : Str} {v : Value} (h : NumText t v) : ∀ c ∈ t, ¬ Newline c := by
  cases h with
  | int h =>
    obtain ⟨sg, k, pre, rx, d, ds, h1, h2, h3, h4, rfl, _⟩ := h
    intro c hc
    simp only [List.mem_append, List.mem_cons] at hc
    rcases hc with (hc | hc) | rfl | hc
    · exact sign_plain h1 c hc
    · revert c; cases h2 <;> decide
    · exact digit_plain h3
    · exact digits_plain h4 c hc
  | float h =>
    obtain ⟨sg, k, ip, fp, ex, h1, h2, h3, h4, _, rfl⟩ := h
    intro c hc
    simp only [List.mem_append] at hc
    rcases hc with hc | hc | hc | hc
    · exact sign_plain h1 c hc
    · exact group_plain h2 c hc
    · rcases h3 with rfl | ⟨ds, h3, rfl⟩
      · cases hc
      · rcases List.mem_cons.mp hc with rfl | hc
        · decide
        · exact group_plain h3 c hc
    · rcases h4 with rfl | ⟨e, es, k', ds, h4, h5, h6, rfl⟩
      · cases hc
      · simp only [List.mem_cons, List.mem_append] at hc
        rcases hc with rfl | hc | hc
        · rcases h4 with rfl | rfl <;> decide
        · exact sign_plain h5 c hc
        · exact group_plain h6 c hc

omit [FloatIO] in
theorem keyword_plain {t : Str} {v : Value} (h : (t, v) ∈ keywords) : ∀ c ∈ t, ¬ Newline c := by
  have : ∀ p ∈ keywords, ∀ c ∈ p.1, ¬ Newline c := by decide
  exact this _ h

theorem Spec.ValText.brk (hκ : Breaks κ) {t : Str} {v : Value} (h : ValText t v) (k : Str) : ValText (brk κ k t) v := by
  cases h with
  | str h => exact .str (h.brk hκ k)
  | num h => rw [brk_plain (numText_plain h)]; exact .num h
  | keyword h => rw [brk_plain (keyword_plain h)]; exact .keyword h

theorem Spec.ValEnd.brk (hκ : Breaks κ) {b : Bool} {t : Str} {v : Value} (h : ValEnd b t v) (k : Str) :
    ValEnd b (brk κ k t) v := by
  cases b with
  | false => exact Spec.ValText.brk hκ h k
  | true => exact (brk_plain (keyword_plain h) k).symm ▸ h

theorem Spec.TyText.brk (hκ : Breaks κ) {nx : Str} {ty : Option Str} {t k nx' : Str} (h : TyText nx ty t) (hk : Near κ k nx nx') :
    TyText nx' ty (brk κ k t) := by
  cases h with
  | none => exact .none
  | some hi hb ha hf =>
    rw [brk_cons (by decide), brk_app, brk_app, brk_app, brk_cons (by decide)]
    exact .some (hi.brk hκ _) (hb.brk hκ (.self' hi.ne _ _)) (ha.brk hκ (.char (by decide) _ _ _)) (hf.brk hκ hk)

theorem Spec.EntryEnd.brk (hκ : Breaks κ) {b : Bool} {d : SEntry Value} {t : Str} (h : EntryEnd b d t) (k : Str) :
    EntryEnd b d (brk κ k t) := by
  cases h with
  | arg ht hv =>
    rw [brk_app]
    exact .arg (ht.brk hκ (.self hv.text.ne _)) (hv.brk hκ _)
  | @prop ty kn kt ak ae tt vt v hk h1 h2 ht hv =>
    rw [brk_app, brk_app, brk_cons (by decide), brk_app, brk_app]
    refine .prop (hk.brk hκ _) (h1.brk hκ (.char (by decide) _ _ _)) (h2.brk hκ ?_) (ht.brk hκ (.self hv.text.ne _)) (hv.brk hκ _)
    have := Near.self (κ := κ) (t := tt ++ vt) (by simp [hv.text.ne]) k
    rwa [brk_app] at this

theorem Spec.SdEnd.brk (hκ : Breaks κ) {b : Bool} {t : Str} (h : SdEnd b t) : ∀ k, SdEnd b (brk κ k t) := by
  induction h with
  | one hb hE =>
    intro k
    rw [brk_cons (by decide), brk_cons (by decide), brk_app]
    exact .one (hb.brk hκ (.self (starts_ne (Kdl.EntryEnd.starts hE)) _)) (hE.brk hκ _)
  | nest hb hS hw hne hE ih =>
    intro k
    rw [brk_cons (by decide), brk_cons (by decide), brk_app, brk_app, brk_app]
    exact .nest (hb.brk hκ (.self' (Kdl.SdEnd.ne hS) _ _)) (ih _) (hw.brk hκ (.self (starts_ne (Kdl.EntryEnd.starts hE)) _))
      (brk_nspace_ne _ hw hne) (hE.brk hκ _)
  | cons hb hE hw hne hT ih =>
    intro k
    rw [brk_cons (by decide), brk_cons (by decide), brk_app, brk_app, brk_app]
    exact .cons (hb.brk hκ (.self' (starts_ne (Kdl.EntryEnd.starts hE)) _ _)) (hE.brk hκ _) (hw.brk hκ (.self (Kdl.SdEnd.ne hT) _))
      (brk_nspace_ne _ hw hne) (ih _)
  | nestCons hb hS hv hne' hE hw hne hT ih1 ih2 =>
    intro k
    rw [brk_cons (by decide), brk_cons (by decide), brk_app, brk_app, brk_app, brk_app, brk_app]
    exact .nestCons (hb.brk hκ (.self' (Kdl.SdEnd.ne hS) _ _)) (ih1 _) (hv.brk hκ (.self' (starts_ne (Kdl.EntryEnd.starts hE)) _ _))
      (brk_nspace_ne _ hv hne') (hE.brk hκ _) (hw.brk hκ (.self (Kdl.SdEnd.ne hT) _)) (brk_nspace_ne _ hw hne) (ih2 _)

theorem Spec.EntryLead.brk (hκ : Breaks κ) {t w : Str} (h : EntryLead t w) (ht : t ≠ []) (k : Str) :
    EntryLead (brk κ k t) (brk κ (t ++ k) w) := by
  cases h with
  | space h hne => exact .space (h.brk hκ (.self ht _)) (brk_nspace_ne _ h hne)
  | slash hw hne hS hv hne' =>
    rw [brk_app, brk_app]
    exact .slash (hw.brk hκ (.self' (Kdl.SdEnd.ne hS) _ _)) (brk_nspace_ne _ hw hne) (hS.brk hκ _) (hv.brk hκ (.self ht _))
      (brk_nspace_ne _ hv hne')

theorem Spec.EntriesText.brk (hκ : Breaks κ) {ds : List (SEntry Value)} {t : Str} (h : EntriesText ds t) (k : Str) :
    EntriesText ds (brk κ k t) := by
  induction h with
  | nil => exact .nil
  | cons hw ht _ ih =>
    rw [brk_app, brk_app, List.append_assoc]
    exact .cons (hw.brk hκ (starts_ne (Kdl.EntryEnd.starts ht)) _) (ht.brk hκ _) ih

/-! ### Nodes -/

omit [FloatIO] in
theorem Spec.TermText.brk (hκ : Breaks κ) {m x k x' : Str} (h : TermText m x) (hk : Near κ k x x') : TermText (brk κ k m) x' := by
  rcases h with rfl | h | h
  · exact Or.inl (brk_plain (by decide) _)
  · rw [brk_newline h hk.old]; exact Or.inr (Or.inl (brk_seq hκ hk.new))
  · exact Or.inr (Or.inr (h.brk hκ hk))

omit [FloatIO] in
/-- What follows a text, before and after an exchange of line breaks. -/
structure Behind (r r' : Str) : Prop where
  nil : r = [] → r' = []
  line : ∀ c q, r = c :: q → Newline c → ∃ c' q', r' = c' :: q' ∧ Newline c'
  char : ∀ c q, r = c :: q → ¬ Newline c → ∃ q', r' = c :: q' ∧ ∀ d p, q = d :: p → ¬ Newline d → ∃ p', q' = d :: p'

omit [FloatIO] in
theorem brk_first (hκ : Breaks κ) {c : Char} (hc : Newline c) : ∀ {t k r r' : Str}, NlImp k r → Behind r r' →
    ∃ c' q', brk κ k (c :: t) ++ r' = c' :: q' ∧ Newline c' := by
  intro t k r r' hk hr
  by_cases h : c = '\r' ∧ (t ++ k).head? = some '\n'
  · have e : brk κ k (c :: t) = brk κ k t := by simp [brk, brkOne, h]
    rw [e]
    cases t with
    | nil =>
      cases k with
      | nil => cases h.2
      | cons a k =>
        obtain rfl : a = '\n' := Option.some.inj h.2
        obtain ⟨q', e⟩ := hk k rfl
        exact hr.line _ _ e (by decide)
    | cons a t =>
      obtain rfl : a = '\n' := Option.some.inj h.2
      obtain ⟨d, p, e, hd⟩ := break_head hκ (t ++ k)
      refine ⟨d, p ++ (brk κ k t ++ r'), ?_, hd⟩
      have : brkOne κ '\n' (t ++ k) = κ (t ++ k) := by simp [brkOne, show Newline '\n' by decide]
      show brkOne κ '\n' (t ++ k) ++ brk κ k t ++ r' = _
      rw [this, e]; simp
  · obtain ⟨d, p, e, hd⟩ := break_head hκ (t ++ k)
    refine ⟨d, p ++ (brk κ k t ++ r'), ?_, hd⟩
    have : brkOne κ c (t ++ k) = κ (t ++ k) := by rw [brkOne, if_neg h, if_pos hc]
    show brkOne κ c (t ++ k) ++ brk κ k t ++ r' = _
    rw [this, e]; simp

omit [FloatIO] in
theorem Behind.brk (hκ : Breaks κ) {t k r r' : Str} (hk : NlImp k r) (h : Behind r r') : Behind (t ++ r) (brk κ k t ++ r') := by
  cases t with
  | nil => exact h
  | cons c t =>
    refine ⟨fun e => by simp at e, fun d q e hd => ?_, fun d q e hd => ?_⟩
    · obtain ⟨rfl, _⟩ := List.cons.inj e
      exact brk_first hκ hd hk h
    · obtain ⟨rfl, rfl⟩ := List.cons.inj e
      rw [brk_cons hd]
      refine ⟨_, rfl, fun a p e ha => ?_⟩
      cases t with
      | nil =>
        obtain ⟨q', e', _⟩ := h.char a p e ha
        exact ⟨q', e'⟩
      | cons b t =>
        obtain ⟨rfl, _⟩ := List.cons.inj e
        rw [brk_cons ha]
        exact ⟨_, rfl⟩

omit [FloatIO] in
theorem Behind.stop {r r' : Str} (h : Behind r r') (hs : NodeStop r) : NodeStop r' := by
  rcases hs with hs | ⟨c, q, e, hs⟩
  · exact Or.inl (h.nil hs)
  · by_cases hc : Newline c
    · obtain ⟨c', q', e', h'⟩ := h.line c q e hc
      exact Or.inr ⟨c', q', e', Or.inr (Or.inr (Or.inl h'))⟩
    · obtain ⟨q', e', h'⟩ := h.char c q e hc
      refine Or.inr ⟨c, q', e', ?_⟩
      rcases hs with hs | hs | hs | ⟨hs, y, ey⟩
      · exact Or.inl hs
      · exact Or.inr (Or.inl hs)
      · exact absurd hs hc
      · exact Or.inr (Or.inr (Or.inr ⟨hs, h' '/' y ey (by decide)⟩))

omit [FloatIO] in
theorem Behind.next {r r' : Str} (h : Behind r r') (hs : NodeNext r) : NodeNext r' := by
  rcases hs with ⟨c, q, e, hc⟩ | ⟨q, e⟩
  · obtain ⟨q', e', _⟩ := h.char c q e (Start.notNewline hc)
    exact Or.inl ⟨c, q', e', hc⟩
  · obtain ⟨q', e', h'⟩ := h.char _ _ e (by decide)
    obtain ⟨p', e2⟩ := h' '-' q rfl (by decide)
    exact Or.inr ⟨p', by rw [e', e2]⟩

omit [FloatIO] in
theorem Behind.brace {c : Char} (hc : c = '{' ∨ c = '}') (q : Str) : Behind (c :: q) (c :: q) := by
  refine ⟨fun e => (by cases e), fun d p e hd => ?_, fun d p e hd => ⟨p, e, fun a p e _ => ⟨p, e⟩⟩⟩
  obtain ⟨rfl, _⟩ := List.cons.inj e
  exact absurd hd (by rcases hc with rfl | rfl <;> decide)

theorem blocks_nonempty {c : Cat} {r t : Str} (h : Text c r t) (hc : c = .blocks) : t ≠ [] := by
  cases h with
  | blocksOne => simp
  | blocksCons => simp
  | _ => cases hc

theorem Spec.Text.brk (hκ : Breaks κ) {c : Cat} {r t : Str} (h : Text c r t) : ∀ {k r' : Str},
    ((c = .blocks ∧ r' = []) ∨ (Near κ k r r' ∧ Behind r r')) → Text c r' (brk κ k t) := by
  induction h with
  | leaf h1 h2 h3 _ ih =>
    rintro k r' (⟨h, _⟩ | ⟨hk, hr⟩)
    · cases h
    rw [brk_app, brk_app, brk_app, List.append_assoc]
    exact .leaf (h1.brk hκ (.self h2.ne _)) (h2.brk hκ _) (h3.brk hκ _) (ih (Or.inr ⟨hk, hr⟩))
  | leafKeyword h1 h2 h3 h4 h5 =>
    rintro k r' (⟨h, _⟩ | ⟨hk, hr⟩)
    · cases h
    rw [brk_app, brk_app, brk_app, brk_app, List.append_assoc]
    exact .leafKeyword (h1.brk hκ (.self h2.ne _)) (h2.brk hκ _) (h3.brk hκ _) (h4.brk hκ (starts_ne (Kdl.EntryEnd.starts h5)) _)
      (h5.brk hκ _)
  | @block b ty nm tt nt T w D v r ds cs h1 h2 h3 _ _ _ ih4 ih5 ih6 =>
    rintro k r' (⟨h, _⟩ | ⟨hk, hr⟩)
    · cases h
    rw [brk_app, brk_app, brk_app, brk_app, brk_cons (by decide), brk_app, brk_cons (by decide), List.append_assoc]
    refine .block (h1.brk hκ (.self h2.ne _)) (h2.brk hκ _) (h3.brk hκ _) (fun x => ?_) (fun x => ?_) (ih6 (Or.inr ⟨hk, hr⟩))
    · exact ih4 x (Or.inr ⟨.char (by decide) _ _ _, .brace (Or.inl rfl) x⟩)
    · exact ih5 x (Or.inr ⟨.char (by decide) _ _ _, .brace (Or.inr rfl) x⟩)
  | midSpace h =>
    rintro k r' (⟨h, _⟩ | ⟨hk, hr⟩)
    · cases h
    exact .midSpace (h.brk hκ hk)
  | midEntries h1 hne h2 h3 =>
    rintro k r' (⟨h, _⟩ | ⟨hk, hr⟩)
    · cases h
    rw [brk_app, brk_app, List.append_assoc]
    exact .midEntries (h1.brk hκ (.self (Kdl.SdEnd.ne h2) _)) (brk_nspace_ne _ h1 hne) (h2.brk hκ _) (h3.brk hκ hk)
  | midKeyword h1 hne h2 =>
    rintro k r' (⟨h, _⟩ | ⟨hk, hr⟩)
    · cases h
    rw [brk_app]
    exact .midKeyword (h1.brk hκ (.self (Kdl.SdEnd.ne h2) _)) (brk_nspace_ne _ h1 hne) (h2.brk hκ _)
  | midBlocks h1 hne h2 h3 ih =>
    rintro k r' (⟨h, _⟩ | ⟨hk, hr⟩)
    · cases h
    rw [brk_app, brk_app, List.append_assoc]
    exact .midBlocks (h1.brk hκ (.self (blocks_nonempty h2 rfl) _)) (brk_nspace_ne _ h1 hne) (ih (Or.inl ⟨rfl, rfl⟩))
      (h3.brk hκ hk)
  | midBoth h1 hne h2 h3 hne' h4 h5 ih =>
    rintro k r' (⟨h, _⟩ | ⟨hk, hr⟩)
    · cases h
    rw [brk_app, brk_app, brk_app, brk_app]
    simp only [List.append_assoc]
    exact .midBoth (h1.brk hκ (.self (Kdl.SdEnd.ne h2) _)) (brk_nspace_ne _ h1 hne) (h2.brk hκ _)
      (h3.brk hκ (.self (blocks_nonempty h4 rfl) _)) (brk_nspace_ne _ h3 hne') (ih (Or.inl ⟨rfl, rfl⟩))
      (h5.brk hκ hk)
  | tailSpace h =>
    rintro k r' (⟨h, _⟩ | ⟨hk, hr⟩)
    · cases h
    exact .tailSpace (h.brk hκ hk)
  | tailBlocks h1 h2 h3 ih =>
    rintro k r' (⟨h, _⟩ | ⟨hk, hr⟩)
    · cases h
    rw [brk_app, brk_app, List.append_assoc]
    exact .tailBlocks (h1.brk hκ (.self (blocks_nonempty h2 rfl) _)) (ih (Or.inl ⟨rfl, rfl⟩)) (h3.brk hκ hk)
  | blocksOne hb _ ih =>
    intro k r' hh
    have e : r' = [] := by
      rcases hh with ⟨_, h⟩ | ⟨_, h⟩
      · exact h
      · exact h.nil rfl
    subst e
    rw [brk_cons (by decide), brk_cons (by decide), brk_app, brk_cons (by decide), brk_app, brk_plain (t := ['}']) (by decide)]
    exact .blocksOne (hb.brk hκ (.char (by decide) _ _ _))
      (fun x => ih x (Or.inr ⟨.char (by decide) _ _ _, .brace (Or.inr rfl) x⟩))
  | blocksCons hb _ hw hne hT ih ihT =>
    intro k r' hh
    have e : r' = [] := by
      rcases hh with ⟨_, h⟩ | ⟨_, h⟩
      · exact h
      · exact h.nil rfl
    subst e
    rw [brk_cons (by decide), brk_cons (by decide), brk_app, brk_cons (by decide), brk_app, brk_cons (by decide), brk_app]
    exact .blocksCons (hb.brk hκ (.char (by decide) _ _ _))
      (fun x => ih x (Or.inr ⟨.char (by decide) _ _ _, .brace (Or.inr rfl) x⟩))
      (hw.brk hκ (.self (blocks_nonempty hT rfl) _)) (brk_nspace_ne _ hw hne) (ihT (Or.inl ⟨rfl, rfl⟩))
  | leadNil => intro k r' _; exact .leadNil
  | leadSpace hw _ ih =>
    rintro k r' (⟨h, _⟩ | ⟨hk, hr⟩)
    · cases h
    rw [brk_app]
    exact .leadSpace (hw.brk hκ (hk.app _)) (ih (Or.inr ⟨hk, hr⟩))
  | @leadNode _ r b B L _ hb hB hs _ ihB ihL =>
    rintro k r' (⟨h, _⟩ | ⟨hk, hr⟩)
    · cases h
    rw [brk_cons (by decide), brk_cons (by decide), brk_app, brk_app, List.append_assoc]
    have ha := hr.brk hκ hk.old (t := L)
    exact .leadNode (hb.brk hκ (.self (starts_ne (node_starts hB)) _)) (ihB (Or.inr ⟨hk.app _, ha⟩))
      (hs.imp ha.stop fun h => ⟨h.1, ha.next h.2⟩) (ihL (Or.inr ⟨hk, hr⟩))
  | last _ ih =>
    rintro k r' (⟨h, _⟩ | ⟨hk, hr⟩)
    · cases h
    exact .last (ih (Or.inr ⟨hk, hr⟩))
  | @lastTerm _ r B m L _ _ hm _ ihB ihL =>
    rintro k r' (⟨h, _⟩ | ⟨hk, hr⟩)
    · cases h
    rw [brk_app, brk_app, List.append_assoc]
    have ha := hr.brk hκ hk.old (t := L)
    have hk' := hk.app
    exact .lastTerm (ihB (Or.inr ⟨(hk' _).app _, ha.brk hκ (hk' _).old⟩)) (hm.brk hκ (hk' _)) (ihL (Or.inr ⟨hk, hr⟩))
  | @lastSlash r q B d _ _ ihB ihL =>
    rintro k r' (⟨h, _⟩ | ⟨hk, hr⟩)
    · cases h
    have e : Kdl.brk κ k ('/' :: '-' :: q) = '/' :: '-' :: Kdl.brk κ k q := by rw [brk_cons (by decide), brk_cons (by decide)]
    have ha := hr.brk hκ hk.old (t := '/' :: '-' :: q)
    have hL := ihL (Or.inr ⟨hk, hr⟩)
    have hB := ihB (Or.inr ⟨hk.app _, ha⟩)
    rw [brk_app]
    rw [e] at hL hB ⊢
    exact .lastSlash hB hL
  | @cons _ r B m L T _ _ _ hm _ _ ihB ihL ihT =>
    rintro k r' (⟨h, _⟩ | ⟨hk, hr⟩)
    · cases h
    rw [brk_app, brk_app, brk_app]
    simp only [List.append_assoc]
    have ha := hr.brk hκ hk.old (t := T)
    have hk' := hk.app
    have ha' := ha.brk hκ (hk' _).old (t := L)
    have hk2 := fun a b => (hk' a).app b
    exact .cons (ihB (Or.inr ⟨(hk2 _ _).app _, ha'.brk hκ (hk2 _ _).old⟩)) (hm.brk hκ (hk2 _ _))
      (ihL (Or.inr ⟨hk' _, ha⟩)) (ihT (Or.inr ⟨hk, hr⟩))
  | empty _ ih =>
    rintro k r' (⟨h, _⟩ | ⟨hk, hr⟩)
    · cases h
    exact .empty (ih (Or.inr ⟨hk, hr⟩))
  | items _ _ ihL ihT =>
    rintro k r' (⟨h, _⟩ | ⟨hk, hr⟩)
    · cases h
    rw [brk_app]
    exact .items (ihL (Or.inr ⟨hk.app _, hr.brk hκ hk.old⟩)) (ihT (Or.inr ⟨hk, hr⟩))

/-! ### Exchanging line breaks -/

omit [FloatIO] in
theorem behind_nil : Behind [] [] := ⟨fun _ => rfl, fun c q e => absurd e (by simp), fun c q e => absurd e (by simp)⟩

omit [FloatIO] in
theorem near_nil : Near κ [] [] [] := ⟨fun q e => absurd e (by simp), fun q e => absurd e (by simp), fun _ => rfl⟩

theorem documentInput_brk (hκ : Breaks κ) {ds : List (SNode Value)} {s : Str} (h : DocumentInput ds s) : DocumentInput ds (brk κ [] s) := by
  obtain ⟨t, e, h⟩ := h
  have h' : DocumentText ds (brk κ [] t) :=
    h.brk hκ (Or.inr ⟨near_nil, behind_nil⟩)
  rcases e with rfl | rfl
  · exact ⟨_, Or.inl rfl, h'⟩
  · exact ⟨_, Or.inr (brk_cons (by decide) _ _), h'⟩

theorem nodeInput_brk (hκ : Breaks κ) {d : SNode Value} {s : Str} (h : NodeInput d s) : NodeInput d (brk κ [] s) := by
  obtain ⟨b, L, B, M, rfl, h1, h2, h3⟩ := h
  have hM : Near κ M M (brk κ [] M) ∧ Behind M (brk κ [] M) := by
    have h := Near.app (κ := κ) near_nil M
    have h' := behind_nil.brk hκ (near_nil (κ := κ)).old (t := M)
    simp only [List.append_nil] at h h'
    exact ⟨h, h'⟩
  have hB := hM.1.app B
  refine ⟨b, brk κ (B ++ M) L, brk κ M B, brk κ [] M, ?_, h1.brk hκ (Or.inr ⟨hB, hM.2.brk hκ hM.1.old⟩), h2.brk hκ (Or.inr hM), ?_⟩
  · rw [brk_app, brk_app]; simp only [List.append_nil]
  · rcases h3 with rfl | ⟨m, v, rfl, h3, h4⟩
    · exact Or.inl rfl
    · refine Or.inr ⟨_, _, brk_app _ _ _, ?_, h4.brk hκ near_nil⟩
      have h := Near.app (κ := κ) near_nil v
      simp only [List.append_nil] at h ⊢
      exact h3.brk hκ h

theorem entryInput_brk (hκ : Breaks κ) {d : SEntry Value} {s : Str} (h : EntryInput d s) : EntryInput d (brk κ [] s) := by
  obtain ⟨l, t, v, h1, h2, h3⟩ := h
  have ht := starts_ne (Kdl.EntryEnd.starts h1)
  rcases h3 with ⟨rfl, h3⟩ | ⟨S, w, rfl, h3, h4, h5, h6⟩
  · refine ⟨_, _, _, h1.brk hκ v, h2.brk hκ near_nil, Or.inl ⟨?_, h3.brk hκ (.self ht v)⟩⟩
    rw [brk_app, brk_app]; simp only [List.append_nil]
  · refine ⟨_, _, _, h1.brk hκ v, h2.brk hκ near_nil, Or.inr ⟨_, _, ?_, h3.brk hκ (.self (Kdl.SdEnd.ne h4) (w ++ (t ++ v))), h4.brk hκ _,
      h5.brk hκ (.self ht v), brk_nspace_ne _ h5 h6⟩⟩
    rw [brk_app, brk_app, brk_app, brk_app]; simp only [List.append_nil]

omit [FloatIO] in
theorem brk_congr {κ κ' : Str → Str} {k : Str} : ∀ {t : Str}, (∀ x, x.length < t.length + k.length → κ x = κ' x) → brk κ k t = brk κ' k t
  | [], _ => rfl
  | c :: t, h => by
    have h1 : κ (t ++ k) = κ' (t ++ k) := h _ (by simp)
    have h2 : brk κ k t = brk κ' k t := brk_congr fun n hn => h n (by simp; omega)
    simp only [brk, brkOne, h1, h2]

omit [FloatIO] in
theorem rebroken_brk {s s' : Str} (h : Rebroken s s') :
    ∃ κ : Str → Str, Breaks κ ∧ (∀ x, s.length ≤ x.length → κ x = ['\n']) ∧ brk κ [] s = s' := by
  have hlf : ∀ x, NewlineSeq ['\n'] x := fun x => Or.inr ⟨_, rfl, by decide, fun e => absurd e (by decide)⟩
  induction h with
  | nil => exact ⟨fun _ => ['\n'], fun _ => hlf _, fun _ _ => rfl, rfl⟩
  | keep hc _ ih =>
    obtain ⟨κ, h1, h2, h3⟩ := ih
    refine ⟨κ, h1, fun x hx => h2 x ?_, by rw [brk_cons hc, h3]⟩
    simp at hx; omega
  | @«break» nl nl' t t' hn hb _ ih =>
    obtain ⟨κ, h1, h2, h3⟩ := ih
    have hc : ∀ u : Str, u.length ≤ t.length → brk (fun x => if x = t then nl' else κ x) [] u = brk κ [] u := by
      intro u hu
      refine brk_congr fun x hx => if_neg ?_
      rintro rfl
      simp at hx; omega
    have hl : 0 < nl.length := by
      rcases hn with rfl | ⟨c, rfl, _⟩ <;> simp
    refine ⟨fun x => if x = t then nl' else κ x, fun x => ?_, fun x hx => ?_, ?_⟩
    · dsimp only
      split
      · rename_i e
        rw [hc x (by simp [e]), e, h3]; exact hb
      · by_cases hx : t.length ≤ x.length
        · rw [h2 x hx]; exact hlf _
        · rw [hc x (by omega)]; exact h1 x
    · simp only [List.length_append] at hx
      dsimp only
      rw [if_neg (by rintro rfl; omega)]
      exact h2 x (by omega)
    · rw [brk_app, List.append_nil, brk_newline hn fun q e => ⟨q, e⟩, if_pos rfl, hc t (Nat.le_refl _), h3]

theorem documentInput_rebroken {ds : List (SNode Value)} {s s' : Str} (h : Rebroken s s') (hd : DocumentInput ds s) :
    DocumentInput ds s' := by
  obtain ⟨κ, h1, _, rfl⟩ := rebroken_brk h
  exact documentInput_brk h1 hd

theorem nodeInput_rebroken {d : SNode Value} {s s' : Str} (h : Rebroken s s') (hd : NodeInput d s) : NodeInput d s' := by
  obtain ⟨κ, h1, _, rfl⟩ := rebroken_brk h
  exact nodeInput_brk h1 hd

theorem entryInput_rebroken {d : SEntry Value} {s s' : Str} (h : Rebroken s s') (hd : EntryInput d s) : EntryInput d s' := by
  obtain ⟨κ, h1, _, rfl⟩ := rebroken_brk h
  exact entryInput_brk h1 hd

omit [FloatIO] in
theorem rebroken_symm {s s' : Str} (h : Rebroken s s') : Rebroken s' s := by
  induction h with
  | nil => exact .nil
  | keep hc _ ih => exact .keep hc ih
  | «break» h1 h2 _ ih => exact .break h2 h1 ih

omit [FloatIO] in
theorem rebroken_crlf {s : Str} (h : '\r' ∉ s) : Rebroken s (crlf s) := by
  induction s with
  | nil => exact .nil
  | cons c t ih =>
    simp only [List.mem_cons, not_or] at h
    have ih := ih h.2
    have e : crlf (c :: t) = (if c = '\n' then ['\r', '\n'] else [c]) ++ crlf t := rfl
    rw [e]
    by_cases hc : Newline c
    · refine .break (nl := [c]) (Or.inr ⟨c, rfl, hc, fun e => absurd e.symm h.1⟩) ?_ ih
      split
      · exact Or.inl rfl
      · exact Or.inr ⟨c, rfl, hc, fun e => absurd e.symm h.1⟩
    · rw [if_neg (by rintro rfl; exact hc (by decide))]
      exact .keep hc ih

end

end Kdl
