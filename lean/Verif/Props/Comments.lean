import Verif.Lemmas.Parser.Gram
import Verif.Lemmas.KernelRfl
import Verif.Props.Values
/-
C31: block comments.
-/

namespace Kdl
open Spec

/-! ### Balanced comments and counting -/

theorem closes_star (n : Nat) {t : Str} (h : ∀ q, t ≠ '/' :: q) : closes n ('*' :: t) = closes n t := by
  cases t with
  | nil => simp [closes]
  | cons c t =>
    have : c ≠ '/' := fun e => h t (by rw [e])
    rw [closes] <;> simp [this]

theorem closes_slash (n : Nat) {t : Str} (h : ∀ q, t ≠ '*' :: q) : closes n ('/' :: t) = closes n t := by
  cases t with
  | nil => simp [closes]
  | cons c t =>
    have : c ≠ '*' := fun e => h t (by rw [e])
    rw [closes] <;> simp [this]

theorem closes_char (n : Nat) {c : Char} {t : Str} (h1 : c ≠ '*') (h2 : c ≠ '/') : closes n (c :: t) = closes n t := by
  rw [closes]
  · rintro q rfl; exact absurd rfl h1
  · rintro q rfl; exact absurd rfl h2

/-- Counting passes over a balanced text. -/
theorem closes_body {a : Str} (h : CBody a) : ∀ (n : Nat) (r : Str),
    closes n (a ++ '*' :: '/' :: r) = closes n ('*' :: '/' :: r) := by
  induction h with
  | nil => exact fun _ _ => rfl
  | char h1 h2 _ ih =>
    intro n r
    rw [List.cons_append, closes_char n h1 h2, ih]
  | @star t h1 _ ih =>
    intro n r
    rw [List.cons_append, closes_star, ih]
    intro q e
    cases t with
    | nil => cases e
    | cons c t => exact h1 t (by rw [(List.cons.inj e).1])
  | @slash t h1 h2 _ ih =>
    intro n r
    rw [List.cons_append, closes_slash, ih]
    intro q e
    cases t with
    | nil => exact h1 rfl
    | cons c t => exact h2 t (by rw [(List.cons.inj e).1])
  | @nest a t _ _ ih1 ih2 =>
    intro n r
    have e : '/' :: '*' :: (a ++ '*' :: '/' :: t) ++ '*' :: '/' :: r =
      '/' :: '*' :: (a ++ '*' :: '/' :: (t ++ '*' :: '/' :: r)) := by simp
    rw [e, closes, ih1, closes, ih2]

theorem closes_inv : ∀ (m n : Nat) (s r : Str), s.length ≤ m → closes n s = some r →
    ∃ a q, CBody a ∧ s = a ++ '*' :: '/' :: q ∧ closes n ('*' :: '/' :: q) = some r := by
  intro m
  induction m with
  | zero =>
    intro n s r hm h
    rw [List.length_eq_zero_iff.mp (Nat.le_zero.mp hm)] at h
    cases h
  | succ m ih =>
    intro n s r hm h
    cases s with
    | nil => cases h
    | cons c t =>
      have hm' : t.length ≤ m := Nat.le_of_succ_le_succ hm
      by_cases h1 : c = '*'
      · subst h1
        by_cases h2 : ∃ q, t = '/' :: q
        · obtain ⟨q, rfl⟩ := h2
          exact ⟨[], q, .nil, rfl, h⟩
        · have h2' : ∀ q, t ≠ '/' :: q := fun q e => h2 ⟨q, e⟩
          rw [closes_star n h2'] at h
          obtain ⟨a, q, ha, rfl, hq⟩ := ih n t r hm' h
          exact ⟨'*' :: a, q, .star (fun q' e => by subst e; exact h2' _ rfl) ha, rfl, hq⟩
      · by_cases h2 : c = '/'
        · subst h2
          by_cases h3 : ∃ q, t = '*' :: q
          · obtain ⟨q, rfl⟩ := h3
            rw [closes] at h
            obtain ⟨a, q1, ha, rfl, hq⟩ := ih (n + 1) q r (by simp at hm'; omega) h
            rw [closes] at hq
            obtain ⟨b, q2, hb, rfl, hq2⟩ := ih n q1 r (by simp at hm'; omega) hq
            exact ⟨'/' :: '*' :: (a ++ '*' :: '/' :: b), q2, .nest ha hb, by simp, hq2⟩
          · have h3' : ∀ q, t ≠ '*' :: q := fun q e => h3 ⟨q, e⟩
            rw [closes_slash n h3'] at h
            obtain ⟨a, q, ha, rfl, hq⟩ := ih n t r hm' h
            refine ⟨'/' :: a, q, .slash ?_ (fun q' e => by subst e; exact h3' _ rfl) ha, rfl, hq⟩
            rintro rfl
            exact h3' _ rfl
        · rw [closes_char n h1 h2] at h
          obtain ⟨a, q, ha, rfl, hq⟩ := ih n t r hm' h
          exact ⟨c :: a, q, .char h1 h2 ha, rfl, hq⟩

/-- The text up to the closing `*/` is balanced, and counting finds that `*/`. -/
theorem closes_iff {s r : Str} : closes 0 s = some r ↔ ∃ a, CBody a ∧ s = a ++ '*' :: '/' :: r := by
  constructor
  · intro h
    obtain ⟨a, q, ha, rfl, hq⟩ := closes_inv _ 0 s r (Nat.le_refl _) h
    cases hq
    exact ⟨a, ha, rfl⟩
  · rintro ⟨a, ha, rfl⟩
    rw [closes_body ha]
    rfl

section
variable [FloatIO]

/-! ### C31 -/

/-- **C31**: a comment that is closed (as found by counting `/*` and `*/`) separates a
node name from an entry like a space does. -/
theorem C31_space {s nt t nm : Str} {d : SEntry Value} (hc : closes 0 s = some t) (hn : StrText nt nm)
    (ht : EntryText d t) :
    ∃ x y, Document.parse (nt ++ '/' :: '*' :: s) = .ok x ∧ semDoc id x = [.mk none nm [d] none] ∧
      Document.parse (nt ++ ' ' :: t) = .ok y ∧ semDoc id y = [.mk none nm [d] none] := by
  obtain ⟨a, ha, rfl⟩ := closes_iff.mp hc
  have h : ∀ w, NSpace t w → w ≠ [] → DocumentText [.mk none nm [d] none] (nt ++ (w ++ t)) := by
    intro w hw hne
    have := Text.items (r := []) .leadNil (.last (.leaf (ty := none) .none hn (.cons (.space hw hne) ht .nil) (.midSpace .nil)))
    simpa using this
  obtain ⟨x, h1, h2⟩ := (h _ (.comment ha .nil) (by simp)).parse
  obtain ⟨y, h3, h4⟩ := (h [' '] (.space (by decide) .nil) (by simp)).parse
  exact ⟨x, y, by simpa using h1, h2, h3, h4⟩

/-- **C31**: a closed comment in front of a document changes nothing. -/
theorem C31_leading {s t : Str} {ds : List (SNode Value)} (hc : closes 0 s = some t) (ht : DocumentText ds t) :
    ∃ x y, Document.parse ('/' :: '*' :: s) = .ok x ∧ semDoc id x = ds ∧
      Document.parse t = .ok y ∧ semDoc id y = ds := by
  obtain ⟨a, ha, rfl⟩ := closes_iff.mp hc
  obtain ⟨y, h3, h4⟩ := ht.parse
  suffices h : DocumentText ds ('/' :: '*' :: (a ++ '*' :: '/' :: t)) by
    obtain ⟨x, h1, h2⟩ := h.parse
    exact ⟨x, y, h1, h2, h3, h4⟩
  have hw : ∀ R, LSpace R ('/' :: '*' :: (a ++ ['*', '/'])) := fun R => LSpace.comment ha .nil
  have ht : Text (.nodes ds) [] t := ht
  cases ht with
  | empty hL => have := Text.empty (.leadSpace (hw _) hL); simpa using this
  | items hL hT => have := Text.items (.leadSpace (hw _) hL) hT; simpa using this

/-- **C31**: a closed comment after a node changes nothing. -/
theorem C31_trailing {nt nm T s : Str} {ds : List (SEntry Value)} (hn : StrText nt nm) (hT : EntriesText ds T)
    (hc : closes 0 s = some []) :
    ∃ x, Document.parse (nt ++ (T ++ '/' :: '*' :: s)) = .ok x ∧ semDoc id x = [.mk none nm ds none] := by
  obtain ⟨a, ha, rfl⟩ := closes_iff.mp hc
  have := Text.items (r := []) .leadNil (.last (.leaf (ty := none) .none hn hT (.midSpace (.comment ha .nil))))
  have h : DocumentText [.mk none nm ds none] (nt ++ (T ++ '/' :: '*' :: (a ++ ['*', '/']))) := by simpa using this
  exact h.parse

/-- A fatal error in the leading space of a document is a parse error. -/
theorem documentParse_cut {s : Str} (hb : ∀ q, s ≠ Char.ofNat 0xFEFF :: q)
    (h : nodesF (utf8Len s) (baseNode (utf8Len s)) s = .cut) : Document.parse s = .err := by
  unfold Document.parse tryParse
  have h1 : documentP (utf8Len s) s = .cut := by
    have h2 : opt (takeP bom) s = .ok none s := opt_none (takeP_back (lit_back.mpr hb))
    unfold documentP
    rw [bind_eq h2]
    exact bind_cut h
  rw [bind_cut h1]

omit [FloatIO] in
theorem rep0_cut {α : Type} {p : P α} {s : Str} (h : p s = .cut) : rep0 p s = .cut := by
  rw [rep0_unfold, h]

omit [FloatIO] in
theorem ws_unterminated {s : Str} (h : closes 0 s = none) : ws ('/' :: '*' :: s) = .cut := by
  have h1 : multiLineComment ('/' :: '*' :: s) = .cut := multiLineComment_cut fun a r ha e => by
    rw [closes_iff.mpr ⟨a, ha, e⟩] at h
    cases h
  unfold ws
  have h2 : unicodeSpace ('/' :: '*' :: s) = .back := rfl
  rw [alt_right h2]
  exact h1

omit [FloatIO] in
theorem nodeSpace_unterminated {s : Str} (h : closes 0 s = none) : nodeSpace ('/' :: '*' :: s) = .cut := by
  unfold nodeSpace
  apply alt_cut
  apply bind_cut
  unfold wss void
  exact bind_cut (rep0_cut (ws_unterminated h))

/-- **C31**: an unterminated comment at the start of a document is an error. -/
theorem C31_unterminated {s : Str} (h : closes 0 s = none) : Document.parse ('/' :: '*' :: s) = .err := by
  apply documentParse_cut (by intro q e; exact absurd (List.cons.inj e).1 (by decide))
  unfold nodesF
  apply bind_cut
  have h3 : (lineSpace <+> (do slashdash; void (baseNode (utf8Len ('/' :: '*' :: s))))) ('/' :: '*' :: s) = .cut :=
    alt_cut (alt_cut (nodeSpace_unterminated h))
  unfold leadingItems takeP
  rw [bind_here]
  exact bind_cut (rep0_cut h3)

/-- **C31**: so is one after a node name. -/
theorem C31_unterminated_name {nt nm s : Str} (hn : StrText nt nm) (h : closes 0 s = none) :
    Document.parse (nt ++ '/' :: '*' :: s) = .err := by
  have he : ¬ Ends ('/' :: '*' :: s) := by
    rintro ⟨u, q, hq⟩
    have hc : valueTerminator ('/' :: '*' :: s) = .cut := by
      unfold valueTerminator
      rw [alt_right (eof_back.mpr (by simp)), alt_right (lit_cons_ne (by decide)), alt_right (lit_cons_ne (by decide)),
        alt_right (lit_cons_ne (by decide)), alt_right (lit_cons_ne (by decide))]
      exact alt_cut (nodeSpace_unterminated h)
    rw [hc] at hq
    cases hq
  have hst : Starts (nt ++ '/' :: '*' :: s) := (StrTok.text hn).starts.append _
  have hstop : Stop ('/' :: '*' :: s) := by
    rintro _ _ ⟨⟩
    decide
  generalize hs : nt ++ '/' :: '*' :: s = S at *
  have hb : ∀ q, S ≠ Char.ofNat 0xFEFF :: q := by
    obtain ⟨c, q, rfl, hc⟩ := hst
    intro q' e
    rw [(List.cons.inj e).1] at hc
    rcases hc with hc | hc | hc | hc <;> revert hc <;> decide
  apply documentParse_cut hb
  have hl : leadingItems (baseNode (utf8Len S)) S = .ok [] S := Lead.nil _ _ hst.solid
  have hc : baseNode (utf8Len S) S = .cut := by
    obtain ⟨e1, e2⟩ := hst.notEnd
    have e3 : opt (tyP (utf8Len S)) S = .ok none S := by
      refine opt_none (tyP_back ?_)
      rw [← hs]
      exact (StrTok.text hn).not_paren _
    have e4 : identifier (utf8Len S) S = .cut := by
      unfold identifier
      rw [bind_here, ← hs]
      exact bind_cut (stringP_cut hn hstop he (by rintro _ ⟨⟩))
    rw [baseNode_unfold]
    unfold baseNodeF
    rw [bind_eq e1, bind_here, bind_eq e2, bind_eq e3, bind_eq (takeP_nil hst.solid.nodeSpace0)]
    apply bind_cut
    unfold cutErr
    rw [e4]
  have hn : nodeF (baseNode (utf8Len S)) S = .cut := by
    unfold nodeF
    rw [bind_eq hl]
    exact bind_cut hc
  unfold nodesF
  rw [bind_eq hl, bind_here]
  apply bind_cut
  unfold sep0
  rw [hn]

end

/-- `n` comments inside each other. -/
def nested : Nat → Str
  | 0 => ['x']
  | n + 1 => '/' :: '*' :: (nested n ++ ['*', '/'])

theorem nested_body : ∀ n, CBody (nested n)
  | 0 => .char (by decide) (by decide) .nil
  | n + 1 => .nest (nested_body n) .nil

/-- Comments nested to any depth meet the hypothesis of `C31_space`. -/
example (n : Nat) (t : Str) : closes 0 (nested n ++ '*' :: '/' :: t) = some t :=
  closes_iff.mpr ⟨_, nested_body n, rfl⟩

/-- So do stars and slashes that do not belong together. -/
example : closes 0 "a* / */1".toList = some ['1'] ∧
    closes 0 "/* b /**/ **/ / * c***/1".toList = some ['1'] := by decide

/-- An unterminated comment, with an inner one that is closed. -/
example : closes 0 "a /* b */ c".toList = none := by decide

end Kdl
