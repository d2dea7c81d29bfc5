import Verif.Lemmas.Parser.Spaced
/-
A text with a doubled slashdash that no spaces can turn into a documented one.
-/

namespace Kdl
open Spec

/-- The characters of the texts considered here. -/
def fewChars : List Char := ['n', 'x', 'y', 'z', '/', '-', ' ', '\n']

/-- Only those characters, and no two slashes in a row. -/
def Few (t : Str) : Prop := (∀ c ∈ t, c ∈ fewChars) ∧ ∀ p q, t ≠ p ++ '/' :: '/' :: q

theorem Few.part {t p s q : Str} (h : Few t) (e : t = p ++ (s ++ q)) : Few s := by
  subst e
  refine ⟨fun c hc => h.1 c (by simp [hc]), fun a b e => h.2 (p ++ a) (b ++ q) (by simp [e])⟩

theorem Few.no {t : Str} (h : Few t) {c : Char} (hc : c ∈ t) (hn : c ∉ fewChars) : False := hn (h.1 c hc)

/-- Without spaces and line feeds. -/
def strip (t : Str) : Str := t.filter fun c => decide (c ≠ ' ') && decide (c ≠ '\n')

theorem strip_app (a b : Str) : strip (a ++ b) = strip a ++ strip b := List.filter_append ..

/-- Reading a text: how much of a slashdash has just been read; 3 if another slash followed it. -/
def slashStep : Nat → Char → Nat
  | 0, c => if c = '/' then 1 else 0
  | 1, c => if c = '-' then 2 else 3
  | 2, c => if c = '/' then 3 else 0
  | _, _ => 3

/-- Every slashdash is followed by something else than a slash. -/
def Single (u : Str) : Prop := u.foldl slashStep 0 = 0

theorem Single.app {a b : Str} (h : Single a) (h' : Single b) : Single (a ++ b) := by
  unfold Single at *
  rw [List.foldl_append, h, h']

theorem Single.plain : ∀ {u : Str}, '/' ∉ u → Single u
  | [], _ => rfl
  | c :: u, h => by
    have h1 : c ≠ '/' := fun e => h (by simp [e])
    show List.foldl slashStep (slashStep 0 c) u = 0
    rw [show slashStep 0 c = 0 by simp [slashStep, h1]]
    exact Single.plain fun e => h (by simp [e])

theorem Single.slash {u : Str} (h : '/' ∉ u) (hne : u ≠ []) : Single ('/' :: '-' :: u) := by
  cases u with
  | nil => exact absurd rfl hne
  | cons c u =>
    have h1 : c ≠ '/' := fun e => h (by simp [e])
    show List.foldl slashStep (slashStep 2 c) u = 0
    rw [show slashStep 2 c = 0 by simp [slashStep, h1]]
    exact Single.plain fun e => h (by simp [e])

theorem nspace_strip {r w : Str} (h : NSpace r w) : Few w → strip w = [] := by
  induction h with
  | nil => intro _; rfl
  | @space c t h1 _ ih =>
    intro hf
    have hc : c = ' ' := by
      have := hf.1 c (by simp)
      simp only [fewChars, List.mem_cons, List.not_mem_nil, or_false] at this
      rcases this with rfl | rfl | rfl | rfl | rfl | rfl | rfl | rfl <;> first | rfl | (exact absurd h1 (by decide))
    subst hc
    exact ih (hf.part (p := [' ']) (q := []) (by simp))
  | comment => intro hf; exact (hf.no (c := '*') (by simp) (by decide)).elim
  | cont => intro hf; exact (hf.no (c := '\\') (by simp) (by decide)).elim

theorem newline_strip {m x : Str} (h : NewlineSeq m x) (hf : Few m) : strip m = [] := by
  rcases h with rfl | ⟨c, rfl, hc, _⟩
  · exact (hf.no (c := '\r') (by simp) (by decide)).elim
  · have : c = '\n' := by
      have := hf.1 c (by simp)
      simp only [fewChars, List.mem_cons, List.not_mem_nil, or_false] at this
      rcases this with rfl | rfl | rfl | rfl | rfl | rfl | rfl | rfl <;> first | rfl | (exact absurd hc (by decide))
    subst this
    rfl

theorem lspace_strip {r w : Str} (h : LSpace r w) : Few w → strip w = [] := by
  induction h with
  | nil => intro _; rfl
  | @space c t h1 _ ih =>
    intro hf
    have hc : c = ' ' := by
      have := hf.1 c (by simp)
      simp only [fewChars, List.mem_cons, List.not_mem_nil, or_false] at this
      rcases this with rfl | rfl | rfl | rfl | rfl | rfl | rfl | rfl <;> first | rfl | (exact absurd h1 (by decide))
    subst hc
    exact ih (hf.part (p := [' ']) (q := []) (by simp))
  | comment => intro hf; exact (hf.no (c := '*') (by simp) (by decide)).elim
  | cont => intro hf; exact (hf.no (c := '\\') (by simp) (by decide)).elim
  | @newline m t hm _ ih =>
    intro hf
    rw [strip_app, newline_strip hm (hf.part (p := []) (q := t) (by simp)), ih (hf.part (p := m) (q := []) (by simp))]
    rfl
  | @line m t hm _ ih =>
    intro hf
    obtain ⟨b, nl, rfl, _⟩ := hm
    exact absurd rfl (hf.2 [] (b ++ nl ++ t))

theorem str_few {t v : Str} (h : StrText t v) (hf : Few t) : '/' ∉ strip t ∧ strip t ≠ [] := by
  cases h with
  | bare h =>
    obtain ⟨h1, h2, _⟩ := h
    have e : strip t = t := by
      refine List.filter_eq_self.mpr fun c hc => ?_
      have := h2 c hc
      have h3 : c ≠ ' ' := by rintro rfl; revert this; decide
      have h4 : c ≠ '\n' := by rintro rfl; revert this; decide
      simp [h3, h4]
    rw [e]
    exact ⟨fun hc => absurd (h2 _ hc) (by decide), h1⟩
  | quoted => exact (hf.no (c := '"') (by simp) (by decide)).elim
  | multi => exact (hf.no (c := '"') (by simp) (by decide)).elim
  | raw => exact (hf.no (c := '"') (by simp) (by decide)).elim
  | rawMulti => exact (hf.no (c := '"') (by simp) (by decide)).elim

theorem few_digit {c : Char} {r : Nat} (h : IsDigit r c) : c ∉ fewChars := by
  intro hc
  obtain ⟨d, h, _⟩ := h
  have h : (digit c).isSome = true := by rw [h]; rfl
  simp only [fewChars, List.mem_cons, List.not_mem_nil, or_false] at hc
  rcases hc with rfl | rfl | rfl | rfl | rfl | rfl | rfl | rfl <;> revert h <;> decide

/-- A single letter is a string. -/
theorem bare_letter {c : Char} (h : IdentChar c) (hd : (digit c).all (fun d => decide (10 ≤ d)) = true) : StrText [c] [c] := by
  refine .bare ⟨by simp, by simpa using h, ?_, fun hm => ?_⟩
  · rintro ⟨sg, k, pt, d, t, hs, hp, ⟨m, hm, hlt⟩, e⟩
    have : d = c := by
      cases hs <;> rcases hp with rfl | rfl <;> simp at e
      exact e.1.symm
    subst this
    rw [hm] at hd
    simp at hd
    omega
  · simp [reserved] at hm

section
variable [FloatIO]

theorem val_few {t : Str} {v : Value} (h : ValText t v) (hf : Few t) : '/' ∉ strip t ∧ strip t ≠ [] := by
  cases h with
  | str h => exact str_few h hf
  | num h =>
    cases h with
    | int h =>
      obtain ⟨sg, k, pre, radix, c, ds, _, _, hc, _, rfl, _⟩ := h
      exact (hf.no (c := c) (by simp) (few_digit hc)).elim
    | float h =>
      obtain ⟨sg, k, ip, fp, ex, _, ⟨c, ds, rfl, hc, _⟩, _, _, _, rfl⟩ := h
      exact (hf.no (c := c) (by simp) (few_digit hc)).elim
  | keyword h =>
    exfalso
    simp only [keywords, List.mem_cons, Prod.mk.injEq, List.not_mem_nil, or_false] at h
    rcases h with ⟨rfl, _⟩ | ⟨rfl, _⟩ | ⟨rfl, _⟩ | ⟨rfl, _⟩ | ⟨rfl, _⟩ | ⟨rfl, _⟩ <;>
      exact hf.no (c := '#') (by decide) (by decide)

theorem entry_few {t : Str} {d : SEntry Value} (h : EntryText d t) (hf : Few t) : '/' ∉ strip t ∧ strip t ≠ [] := by
  cases h with
  | @arg ty tt vt v ht hv =>
    cases ht with
    | none => exact val_few hv hf
    | some => exact (hf.no (c := '(') (by simp) (by decide)).elim
  | prop => exact (hf.no (c := '=') (by simp) (by decide)).elim

theorem entries_single {ds : List (SEntry Value)} {T : Str} (h : DEntries ds T) : Few T → Single (strip T) := by
  induction h with
  | nil => intro _; rfl
  | @cons s w sl E T d ds hw hne hs hE _ ih =>
    intro hf
    have h1 := nspace_strip hw (hf.part (p := []) (q := sl ++ (E ++ T)) (by simp))
    obtain ⟨h2, h3⟩ := entry_few hE (hf.part (p := w ++ sl) (q := T) (by simp))
    have h4 := ih (hf.part (p := w ++ (sl ++ E)) (q := []) (by simp))
    rw [strip_app, strip_app, strip_app, h1, List.nil_append, ← List.append_assoc]
    refine Single.app ?_ h4
    cases hs with
    | no => exact Single.plain h2
    | @yes b hb =>
      have h5 := lspace_strip hb (hf.part (p := w ++ ['/', '-']) (q := E ++ T) (by simp))
      rw [show strip ('/' :: '-' :: b) = '/' :: '-' :: strip b from rfl, h5]
      exact Single.slash h2 h3

/-- In a documented text of these characters no slashdash is doubled. -/
theorem doc_single {c : DCat} {r t : Str} {semi : Bool} (h : Doc semi c r t) : Few t → Single (strip t) := by
  induction h with
  | children => intro hf; exact (hf.no (c := '{') (by simp) (by decide)).elim
  | skipNil => intro _; rfl
  | skip _ _ _ hC =>
    intro hf
    cases hC with
    | children => exact (hf.no (c := '{') (by simp) (by decide)).elim
  | noBlock => intro _; rfl
  | block _ _ hC =>
    intro hf
    cases hC with
    | children => exact (hf.no (c := '{') (by simp) (by decide)).elim
  | @base s r sl tt nt T S C S' w nm ty ds cs hs ht hn hT _ _ _ hw ihS ihC ihS' =>
    intro hf
    have hw' := nspace_strip hw (hf.part (p := sl ++ (tt ++ (nt ++ (T ++ (S ++ (C ++ S')))))) (q := []) (by simp))
    have hT' := entries_single hT (hf.part (p := sl ++ (tt ++ nt)) (q := S ++ (C ++ (S' ++ w))) (by simp))
    have hS := ihS (hf.part (p := sl ++ (tt ++ (nt ++ T))) (q := C ++ (S' ++ w)) (by simp))
    have hC := ihC (hf.part (p := sl ++ (tt ++ (nt ++ (T ++ S)))) (q := S' ++ w) (by simp))
    have hS' := ihS' (hf.part (p := sl ++ (tt ++ (nt ++ (T ++ (S ++ C))))) (q := w) (by simp))
    obtain ⟨h2, h3⟩ := str_few hn (hf.part (p := sl ++ tt) (q := T ++ (S ++ (C ++ (S' ++ w)))) (by simp))
    have htt : strip tt = [] := by
      have hft := hf.part (p := sl) (s := tt) (q := nt ++ (T ++ (S ++ (C ++ (S' ++ w))))) (by simp)
      cases ht with
      | none hw => exact nspace_strip hw hft
      | some => exact (hft.no (c := '(') (by simp) (by decide)).elim
    rw [strip_app, strip_app, strip_app, strip_app, strip_app, strip_app, strip_app, htt, hw', List.append_nil, List.nil_append,
      ← List.append_assoc]
    refine Single.app ?_ (hT'.app (hS.app (hC.app hS')))
    cases hs with
    | no => exact Single.plain h2
    | @yes b hb =>
      have h5 := lspace_strip hb (hf.part (p := ['/', '-']) (q := tt ++ (nt ++ (T ++ (S ++ (C ++ (S' ++ w)))))) (by simp))
      rw [show strip ('/' :: '-' :: b) = '/' :: '-' :: strip b from rfl, h5]
      exact Single.slash h2 h3
  | noFinal => intro _; rfl
  | @final s r B w m d _ hw hm _ ih =>
    intro hf
    have hB := ih (hf.part (p := []) (q := w ++ m) (by simp))
    have hw' := nspace_strip hw (hf.part (p := B) (q := m) (by simp))
    have hm' : strip m = [] := by
      have hfm := hf.part (p := B ++ w) (s := m) (q := []) (by simp)
      rcases hm with rfl | ⟨b, nl, rfl, _⟩ | hm | rfl | ⟨rfl, _⟩
      · rfl
      · exact absurd rfl (hfm.2 [] (b ++ nl))
      · exact newline_strip hm hfm
      · exact (hfm.no (c := ';') (by simp) (by decide)).elim
      · rfl
    rw [strip_app, strip_app, hw', hm']
    simpa using hB
  | noNode hl => intro hf; rw [lspace_strip hl hf]; rfl
  | @node s r l B w m T d ds hl _ hw hm _ _ ihB ihT =>
    intro hf
    have hB := ihB (hf.part (p := l) (q := w ++ (m ++ T)) (by simp))
    have hl' := lspace_strip hl (hf.part (p := []) (q := B ++ (w ++ (m ++ T))) (by simp))
    have hw' := nspace_strip hw (hf.part (p := l ++ B) (q := m ++ T) (by simp))
    have hT := ihT (hf.part (p := l ++ (B ++ (w ++ m))) (q := []) (by simp))
    have hm' : strip m = [] := by
      have hfm := hf.part (p := l ++ (B ++ w)) (s := m) (q := T) (by simp)
      rcases hm with ⟨b, nl, rfl, _⟩ | hm | rfl | ⟨rfl, _⟩
      · exact absurd rfl (hfm.2 [] (b ++ nl))
      · exact newline_strip hm hfm
      · exact (hfm.no (c := ';') (by simp) (by decide)).elim
      · rfl
    rw [strip_app, strip_app, strip_app, strip_app, hl', hw', hm', List.nil_append, List.nil_append, List.nil_append]
    exact hB.app hT

theorem Spec.Spaced.strip {t t' : Str} (h : Spaced t t') : Kdl.strip t' = Kdl.strip t := by
  induction h with
  | nil => rfl
  | @keep c t t' _ ih =>
    show List.filter _ _ = List.filter _ _
    rw [List.filter_cons, List.filter_cons]
    simp only [Kdl.strip] at ih
    rw [ih]
  | put hc _ ih =>
    rcases hc with rfl | rfl <;> exact ih

theorem Spec.Spaced.chars {t t' : Str} (h : Spaced t t') : ∀ c ∈ t', c ∈ t ∨ c = ' ' ∨ c = '\n' := by
  induction h with
  | nil => simp
  | keep _ ih =>
    intro c hc
    rcases List.mem_cons.mp hc with rfl | hc
    · exact Or.inl (by simp)
    · exact (ih c hc).imp (fun h => List.mem_cons_of_mem _ h) id
  | put h _ ih =>
    intro c hc
    rcases List.mem_cons.mp hc with rfl | hc
    · exact Or.inr h
    · exact ih c hc

/-- No spaces make this text a documented one. -/
theorem doubled_undocumented {t' : Str} (h : Spaced "n /-/-x y z".toList t') (semi : Bool) (ds : List (SNode Value)) :
    ¬ Documented semi ds t' := by
  rintro ⟨t, ht, hd⟩
  have hc : ∀ c ∈ t', c ∈ fewChars := by
    intro c hc
    rcases h.chars c hc with h | rfl | rfl
    · exact (show ∀ c ∈ "n /-/-x y z".toList, c ∈ fewChars by decide) c h
    · decide
    · decide
  have hs : strip t' = "n/-/-xyz".toList := h.strip
  have hf : Few t' := by
    refine ⟨hc, fun p q e => ?_⟩
    have : ['/', '/'] <:+: "n/-/-xyz".toList := ⟨strip p, strip q, by rw [← hs, e, strip_app, List.append_assoc]; rfl⟩
    revert this
    decide +kernel
  rcases ht with rfl | rfl
  · have := doc_single hd hf
    rw [hs] at this
    revert this
    unfold Single
    decide
  · exact absurd (hc (Char.ofNat 65279) List.mem_cons_self) (by decide)

end

end Kdl
