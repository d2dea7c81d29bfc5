import Verif.Props.Comments
import Verif.Lemmas.Text
/-
White space and comments, read one character at a time. This makes it easy to see what
trimming lines does to them.
-/

namespace Kdl
open Spec

/-! ### The scanner -/

/-- The last character inside a block comment. -/
inductive Mark | plain | slash | star
deriving DecidableEq

/-- The state of the scanner: between comments and continuations, after a backslash, in a
single-line comment, after a carriage return that ended one of these, after a slash, in a
block comment with `n` more around it. The flag tells whether a backslash came before. -/
inductive Scan
  | base | esc | line | cr | slash (e : Bool) | block (k : Mark) (n : Nat) (e : Bool)
deriving DecidableEq

/-- Where a block comment returns to. -/
def Scan.back (e : Bool) : Scan := if e then .esc else .base

/-- The mark that a character leaves. -/
def Mark.of (c : Char) : Mark := if c = '/' then .slash else if c = '*' then .star else .plain

/-- One character between comments. With `z`, newlines are not allowed there. -/
def Scan.stepBase (z : Bool) (c : Char) : Option Scan :=
  if Space c then some .base else if Newline c then (if z then none else some .base)
  else if c = '/' then some (.slash false) else if c = '\\' then some .esc else none

/-- One character. -/
def Scan.step (z : Bool) : Scan → Char → Option Scan
  | .base, c => stepBase z c
  | .esc, c => if Space c then some .esc else if c = '\r' then some .cr else if Newline c then some .base
    else if c = '/' then some (.slash true) else none
  | .cr, c => if c = '\n' then some .base else stepBase z c
  | .line, c => if c = '\r' then some .cr else if Newline c then some .base else some .line
  | .slash e, c => if c = '*' then some (.block .plain 0 e)
    else if c = '/' ∧ (e = true ∨ z = false) then some .line else none
  | .block k n e, c =>
    if c = '/' ∧ k = .star then some (match n with | 0 => Scan.back e | n + 1 => .block .plain n e)
    else if c = '*' ∧ k = .slash then some (.block .plain (n + 1) e)
    else some (.block (.of c) n e)

/-- A text. -/
def Scan.run (z : Bool) : Scan → Str → Option Scan
  | q, [] => some q
  | q, c :: s => (q.step z c).bind fun q' => q'.run z s

variable {z : Bool}

theorem Scan.run_append {q : Scan} {a b : Str} : q.run z (a ++ b) = (q.run z a).bind fun p => p.run z b := by
  induction a generalizing q with
  | nil => rfl
  | cons c a ih =>
    simp only [List.cons_append, Scan.run]
    cases q.step z c with
    | none => rfl
    | some p => simp [ih]

theorem Scan.run_one {q : Scan} {c : Char} : q.run z [c] = q.step z c := by
  simp only [Scan.run]
  cases q.step z c <;> rfl

/-! ### From the grammar to the scanner -/

theorem Mark.of_plain {c : Char} (h1 : c ≠ '*') (h2 : c ≠ '/') : Mark.of c = .plain := by simp [Mark.of, h1, h2]

theorem scan_body {a : Str} (h : CBody a) : ∀ (k : Mark) (n : Nat) (e : Bool) (x : Str), (k = .star → ∀ q, a ≠ '/' :: q) →
    (k = .slash → a ≠ [] ∧ ∀ q, a ≠ '*' :: q) →
    (Scan.block k n e).run z (a ++ '*' :: '/' :: x) = (match n with | 0 => Scan.back e | n + 1 => .block .plain n e).run z x := by
  induction h with
  | nil =>
    intro k n e x h1 h2
    have hk : k ≠ .slash := fun e => (h2 e).1 rfl
    simp [Scan.run, Scan.step, hk, Mark.of]
  | @char c t h1 h2 _ ih =>
    intro k n e x _ _
    rw [List.cons_append, Scan.run]
    simp only [Scan.step, h1, h2, false_and, if_false, Option.bind_some, Mark.of_plain h1 h2]
    exact ih .plain n e x (by simp) (by simp)
  | @star t h1 _ ih =>
    intro k n e x _ h
    rw [List.cons_append, Scan.run]
    have hk : k ≠ .slash := fun e => (h e).2 _ rfl
    simp only [Scan.step, hk, show ¬ ('*' = '/') by decide, false_and, and_false, if_false, Option.bind_some]
    exact ih .star n e x (fun _ => h1) (by rintro ⟨⟩)
  | @slash t h1 h2 _ ih =>
    intro k n e x h _
    rw [List.cons_append, Scan.run]
    have hk : k ≠ .star := fun e => h e _ rfl
    simp only [Scan.step, hk, show ¬ ('/' = '*') by decide, false_and, and_false, if_false, Option.bind_some]
    exact ih .slash n e x (by rintro ⟨⟩) (fun _ => ⟨h1, h2⟩)
  | @nest a t _ _ ih1 ih2 =>
    intro k n e x h _
    have hk : k ≠ .star := fun e => h e _ rfl
    have e1 : '/' :: '*' :: (a ++ '*' :: '/' :: t) ++ '*' :: '/' :: x =
      '/' :: '*' :: (a ++ '*' :: '/' :: (t ++ '*' :: '/' :: x)) := by simp
    rw [e1, Scan.run]
    simp only [Scan.step, hk, show ¬ ('/' = '*') by decide, false_and, and_false, if_false, Option.bind_some]
    rw [Scan.run]
    simp only [Scan.step, show Mark.of '/' = .slash from rfl, show ¬ ('*' = '/') by decide, false_and, if_false, and_self, if_true,
      Option.bind_some]
    rw [ih1 .plain (n + 1) e _ (by simp) (by simp), ih2 .plain n e x (by simp) (by simp)]

theorem scan_comment {a : Str} (h : CBody a) (e : Bool) (x : Str) :
    (Scan.back e).run z ('/' :: '*' :: (a ++ '*' :: '/' :: x)) = (Scan.back e).run z x := by
  have h1 : (Scan.back e).step z '/' = some (.slash e) := by
    cases e <;> simp [Scan.back, Scan.step, Scan.stepBase, show ¬ Space '/' by decide, show ¬ Newline '/' by decide]
  rw [Scan.run, h1, Option.bind_some, Scan.run]
  simp only [Scan.step, if_true, Option.bind_some]
  rw [scan_body h .plain 0 e x (by simp) (by simp)]

theorem scan_space {c : Char} (h : Space c) (e : Bool) (x : Str) : (Scan.back e).run z (c :: x) = (Scan.back e).run z x := by
  have h1 : (Scan.back e).step z c = some (Scan.back e) := by cases e <;> simp [Scan.back, Scan.step, Scan.stepBase, h]
  rw [Scan.run, h1, Option.bind_some]

theorem scan_wseq {b : Str} (h : WSeq b) (e : Bool) (x : Str) : (Scan.back e).run z (b ++ x) = (Scan.back e).run z x := by
  induction h with
  | nil => rfl
  | space h1 _ ih => rw [List.cons_append, scan_space h1, ih]
  | @comment a t ha _ ih =>
    have : '/' :: '*' :: (a ++ '*' :: '/' :: t) ++ x = '/' :: '*' :: (a ++ '*' :: '/' :: (t ++ x)) := by simp
    rw [this, scan_comment ha, ih]

/-- The scanner is between comments, at a place where the rest may follow. -/
def Scan.Ready (r : Str) (q : Scan) : Prop := q = .base ∨ q = .cr ∨ (r = [] ∧ (q = .line ∨ q = .esc))

theorem scan_cr {t r : Str} (h : ∀ q, t ++ r ≠ '\n' :: q) (ht : t ≠ []) : Scan.cr.run z t = Scan.base.run z t := by
  cases t with
  | nil => exact absurd rfl ht
  | cons c t =>
    have hc : c ≠ '\n' := fun e => h (t ++ r) (by rw [e]; rfl)
    simp [Scan.run, Scan.step, hc]

/-- After a newline that ends a comment or follows a backslash. -/
theorem scan_after {m t r : Str} {p : Scan} (hp : p = .esc ∨ p = .line) (hm : NewlineSeq m (t ++ r)) :
    p.run z (m ++ t) = Scan.base.run z t ∨ (t = [] ∧ p.run z (m ++ t) = some .cr) := by
  have h2 : p.step z '\r' = some .cr := by
    rcases hp with rfl | rfl
    · simp [Scan.step, show ¬ Space '\r' by decide]
    · simp [Scan.step]
  rcases hm with rfl | ⟨c, rfl, hc, hr⟩
  · left
    rw [List.cons_append, Scan.run, h2, Option.bind_some, List.cons_append, Scan.run, List.nil_append]
    simp [Scan.step]
  · rw [List.cons_append, Scan.run, List.nil_append]
    by_cases e : c = '\r'
    · subst e
      rw [h2, Option.bind_some]
      by_cases ht : t = []
      · subst ht
        exact .inr ⟨rfl, rfl⟩
      · exact .inl (scan_cr (hr rfl) ht)
    · left
      have hs : ¬ Space c := by
        intro hs
        simp only [Newline, newlineCodes, List.mem_cons, List.not_mem_nil, or_false] at hc
        simp only [Space, spaceCodes, List.mem_cons, List.not_mem_nil, or_false] at hs
        omega
      have : p.step z c = some .base := by
        rcases hp with rfl | rfl <;> simp [Scan.step, hs, e, hc]
      rw [this, Option.bind_some]

theorem scan_inline {b x : Str} (hb : ∀ c ∈ b, ¬ Newline c) : Scan.line.run z (b ++ x) = Scan.line.run z x := by
  induction b with
  | nil => rfl
  | cons c b ih =>
    have hc := hb c (by simp)
    have hr : c ≠ '\r' := by rintro rfl; exact hc (by decide)
    rw [List.cons_append, Scan.run]
    simp only [Scan.step, hr, hc, if_false, Option.bind_some]
    exact ih fun d hd => hb d (List.mem_cons_of_mem _ hd)

theorem scan_lineComment {m t r : Str} (e : Bool) (he : e = true ∨ z = false) (hm : LineComment m (t ++ r)) :
    (Scan.back e).run z (m ++ t) = Scan.base.run z t ∨ (t = [] ∧ (Scan.back e).run z (m ++ t) = some .cr) ∨
    (t = [] ∧ r = [] ∧ (Scan.back e).run z (m ++ t) = some .line) := by
  obtain ⟨b, nl, rfl, hb, hn⟩ := hm
  have h1 : (Scan.back e).step z '/' = some (.slash e) := by
    cases e <;> simp [Scan.back, Scan.step, Scan.stepBase, show ¬ Space '/' by decide, show ¬ Newline '/' by decide]
  have h2 : (Scan.back e).run z ('/' :: '/' :: (b ++ nl) ++ t) = Scan.line.run z (nl ++ t) := by
    rw [List.cons_append, Scan.run, h1, Option.bind_some, List.cons_append, Scan.run]
    simp only [Scan.step, show ¬ ('/' = '*') by decide, if_false, he, and_self, if_true, Option.bind_some]
    rw [List.append_assoc, scan_inline hb]
  rw [h2]
  rcases hn with hn | ⟨rfl, hx⟩
  · rcases scan_after (z := z) (.inr rfl) hn with h | h
    · exact .inl h
    · exact .inr (.inl h)
  · obtain ⟨rfl, rfl⟩ := List.append_eq_nil_iff.mp hx
    exact .inr (.inr ⟨rfl, rfl, rfl⟩)

theorem scan_cont {b m t r : Str} (hb : WSeq b) (hm : LineEnd m (t ++ r)) (ih : ∃ q, Scan.base.run z t = some q ∧ q.Ready r) :
    ∃ q, Scan.base.run z ('\\' :: (b ++ (m ++ t))) = some q ∧ q.Ready r := by
  have h1 : Scan.base.step z '\\' = some .esc := by
    simp [Scan.step, Scan.stepBase, show ¬ Space '\\' by decide, show ¬ Newline '\\' by decide]
  rw [Scan.run, h1, Option.bind_some]
  have h2 : Scan.esc.run z (b ++ (m ++ t)) = Scan.esc.run z (m ++ t) := scan_wseq hb true _
  rw [h2]
  rcases hm with hm | hm | ⟨rfl, hx⟩
  · rcases scan_after (z := z) (.inl rfl) hm with h | ⟨_, h⟩
    · rwa [h]
    · exact ⟨_, h, .inr (.inl rfl)⟩
  · rcases scan_lineComment true (.inl rfl) hm with h | ⟨_, h⟩ | ⟨_, hr, h⟩
    · rw [show Scan.esc = Scan.back true from rfl, h]; exact ih
    · exact ⟨_, h, .inr (.inl rfl)⟩
    · exact ⟨_, h, .inr (.inr ⟨hr, .inl rfl⟩)⟩
  · obtain ⟨rfl, rfl⟩ := List.append_eq_nil_iff.mp hx
    exact ⟨_, rfl, .inr (.inr ⟨rfl, .inr rfl⟩)⟩

theorem Spec.NSpace.scan {r w : Str} (h : NSpace r w) : ∃ q, Scan.base.run true w = some q ∧ q.Ready r := by
  induction h with
  | nil => exact ⟨_, rfl, .inl rfl⟩
  | space h1 _ ih => rwa [show Scan.base = Scan.back false from rfl, scan_space h1]
  | comment ha _ ih => rwa [show Scan.base = Scan.back false from rfl, scan_comment ha]
  | cont hb hm _ ih => exact scan_cont hb hm ih

theorem Spec.LSpace.scan {r w : Str} (h : LSpace r w) : ∃ q, Scan.base.run false w = some q ∧ q.Ready r := by
  induction h with
  | nil => exact ⟨_, rfl, .inl rfl⟩
  | space h1 _ ih => rwa [show Scan.base = Scan.back false from rfl, scan_space h1]
  | comment ha _ ih => rwa [show Scan.base = Scan.back false from rfl, scan_comment ha]
  | cont hb hm _ ih => exact scan_cont hb hm ih
  | @newline m t hm _ ih =>
    have h1 : ∀ c x, Newline c → Scan.base.run false (c :: x) = Scan.base.run false x := by
      intro c x hc
      rw [Scan.run]
      have : Scan.base.step false c = some .base := by
        by_cases hs : Space c <;> simp [Scan.step, Scan.stepBase, hs, hc]
      rw [this, Option.bind_some]
    rcases hm with rfl | ⟨c, rfl, hc, _⟩
    · rw [List.cons_append, h1 _ _ (by decide), List.cons_append, h1 _ _ (by decide)]
      exact ih
    · rw [List.cons_append, h1 _ _ hc]
      exact ih
  | @line m t hm _ ih =>
    rcases scan_lineComment false (.inr rfl) hm with h | ⟨_, h⟩ | ⟨_, hr, h⟩
    · rw [show Scan.base = Scan.back false from rfl, h]; exact ih
    · exact ⟨_, h, .inr (.inl rfl)⟩
    · exact ⟨_, h, .inr (.inr ⟨hr, .inl rfl⟩)⟩

/-! ### From the scanner to the grammar -/

/-- The character a mark stands for. -/
def Mark.text : Mark → Str
  | .plain => []
  | .slash => ['/']
  | .star => ['*']

/-- The scanner is not in a block comment. -/
def Scan.Out : Scan → Prop
  | .block _ _ _ => False
  | _ => True

theorem closes_mark {c : Char} {n : Nat} {s : Str} : closes n (c :: s) = closes n ((Mark.of c).text ++ s) := by
  by_cases h1 : c = '*'
  · subst h1; rfl
  · by_cases h2 : c = '/'
    · subst h2; rfl
    · rw [closes_char n h1 h2, Mark.of_plain h1 h2]; rfl

theorem scan_closes {f : Scan} (hf : f.Out) : ∀ {s : Str} {k : Mark} {n : Nat} {e : Bool}, (Scan.block k n e).run z s = some f →
    ∃ s', closes n (k.text ++ s) = some s' ∧ (Scan.back e).run z s' = some f
  | [], k, n, e, h => by
    cases h
    cases hf
  | c :: s, k, n, e, h => by
    rw [Scan.run] at h
    simp only [Scan.step] at h
    by_cases h1 : c = '/' ∧ k = .star
    · obtain ⟨rfl, rfl⟩ := h1
      simp only [and_self, if_true, Option.bind_some] at h
      cases n with
      | zero => exact ⟨s, rfl, h⟩
      | succ n =>
        obtain ⟨s', h2, h3⟩ := scan_closes (s := s) hf h
        exact ⟨s', h2, h3⟩
    · rw [if_neg h1] at h
      by_cases h2 : c = '*' ∧ k = .slash
      · obtain ⟨rfl, rfl⟩ := h2
        simp only [and_self, if_true, Option.bind_some] at h
        obtain ⟨s', h2, h3⟩ := scan_closes (s := s) hf h
        exact ⟨s', h2, h3⟩
      · rw [if_neg h2, Option.bind_some] at h
        obtain ⟨s', h3, h4⟩ := scan_closes (s := s) hf h
        refine ⟨s', ?_, h4⟩
        rw [← h3, ← closes_mark]
        cases k with
        | plain => rfl
        | slash => exact closes_slash n (by rintro q ⟨⟩; exact h2 ⟨rfl, rfl⟩)
        | star => exact closes_star n (by rintro q ⟨⟩; exact h1 ⟨rfl, rfl⟩)

theorem scan_body_inv {f : Scan} (hf : f.Out) {s : Str} {e : Bool} (h : (Scan.block .plain 0 e).run z s = some f) :
    ∃ a t, CBody a ∧ s = a ++ '*' :: '/' :: t ∧ (Scan.back e).run z t = some f := by
  obtain ⟨s', h1, h2⟩ := scan_closes hf h
  obtain ⟨a, ha, rfl⟩ := closes_iff.mp h1
  exact ⟨a, s', ha, rfl, h2⟩

/-- What follows is read from the base state, unless it is empty. -/
theorem scan_newline {s : Str} {c : Char} {p : Scan} (hp : p = .esc ∨ p = .line) (hc : Newline c) (hr : (c :: s).getLast? ≠ some '\r')
    (h : p.run z (c :: s) = some .base) : ∃ m t, c :: s = m ++ t ∧ m ≠ [] ∧ (∀ r, NewlineSeq m (t ++ r)) ∧ Scan.base.run z t = some .base := by
  rw [Scan.run] at h
  by_cases e : c = '\r'
  · subst e
    have h2 : p.step z '\r' = some .cr := by
      rcases hp with rfl | rfl
      · simp [Scan.step, show ¬ Space '\r' by decide]
      · simp [Scan.step]
    rw [h2, Option.bind_some] at h
    cases s with
    | nil => exact absurd rfl hr
    | cons d s =>
      by_cases hd : d = '\n'
      · subst hd
        rw [Scan.run] at h
        simp only [Scan.step, if_true, Option.bind_some] at h
        exact ⟨['\r', '\n'], s, rfl, by simp, fun _ => .inl rfl, h⟩
      · rw [scan_cr (r := []) (by simpa using hd) (by simp)] at h
        refine ⟨['\r'], d :: s, rfl, by simp, fun r => .inr ⟨_, rfl, hc, ?_⟩, h⟩
        rintro - q ⟨⟩
        exact hd rfl
  · have hs : ¬ Space c := by
      intro hs
      simp only [Newline, newlineCodes, List.mem_cons, List.not_mem_nil, or_false] at hc
      simp only [Space, spaceCodes, List.mem_cons, List.not_mem_nil, or_false] at hs
      omega
    have h2 : p.step z c = some .base := by
      rcases hp with rfl | rfl <;> simp [Scan.step, hs, e, hc]
    rw [h2, Option.bind_some] at h
    exact ⟨[c], s, rfl, by simp, fun r => .inr ⟨_, rfl, hc, fun e' => absurd e' e⟩, h⟩

theorem getLast_tail {c : Char} {s : Str} (h : (c :: s).getLast? ≠ some '\r') (hs : s ≠ []) : s.getLast? ≠ some '\r' := by
  cases s with
  | nil => exact absurd rfl hs
  | cons e s => rwa [List.getLast?_cons_cons] at h

theorem getLast_drop {a s : Str} (h : (a ++ s).getLast? ≠ some '\r') (hs : s ≠ []) : s.getLast? ≠ some '\r' := by
  rw [List.getLast?_append] at h
  intro e
  rw [e] at h
  exact h rfl

/-- A single-line comment. -/
theorem scan_line_inv : ∀ {s : Str}, s.getLast? ≠ some '\r' → Scan.line.run z s = some .base →
    ∃ b m t, s = b ++ (m ++ t) ∧ (∀ c ∈ b, ¬ Newline c) ∧ m ≠ [] ∧ (∀ r, NewlineSeq m (t ++ r)) ∧ Scan.base.run z t = some .base
  | [], _, h => by cases h
  | c :: s, hr, h => by
    by_cases hc : Newline c
    · obtain ⟨m, t, e, hm, h1, h2⟩ := scan_newline (.inr rfl) hc hr h
      exact ⟨[], m, t, e, by simp, hm, h1, h2⟩
    · have hcr : c ≠ '\r' := by rintro rfl; exact hc (by decide)
      rw [Scan.run] at h
      simp only [Scan.step, hcr, hc, if_false, Option.bind_some] at h
      have hs : s ≠ [] := by rintro rfl; cases h
      obtain ⟨b, m, t, e, hb, hm, h1, h2⟩ := scan_line_inv (getLast_tail hr hs) h
      refine ⟨c :: b, m, t, by rw [e]; rfl, ?_, hm, h1, h2⟩
      intro d hd
      rcases List.mem_cons.mp hd with rfl | hd
      · exact hc
      · exact hb d hd

/-- After a backslash. -/
theorem scan_esc_inv : ∀ (N : Nat) {s : Str}, s.length ≤ N → s.getLast? ≠ some '\r' → Scan.esc.run z s = some .base →
    ∃ b m t, s = b ++ (m ++ t) ∧ WSeq b ∧ m ≠ [] ∧ (∀ r, LineEnd m (t ++ r)) ∧ Scan.base.run z t = some .base
  | 0, s, hN, _, h => by
    rw [List.length_eq_zero_iff.mp (Nat.le_zero.mp hN)] at h
    cases h
  | N + 1, [], _, _, h => by cases h
  | N + 1, c :: s, hN, hr, h => by
    by_cases hc : Newline c
    · obtain ⟨m, t, e, hm, h1, h2⟩ := scan_newline (.inl rfl) hc hr h
      exact ⟨[], m, t, e, .nil, hm, fun r => .inl (h1 r), h2⟩
    · have hcr : c ≠ '\r' := by rintro rfl; exact hc (by decide)
      have h0 := h
      rw [Scan.run] at h
      simp only [Scan.step, hcr, hc, if_false] at h
      have hs : s ≠ [] := by
        rintro rfl
        split at h
        · cases h
        · split at h <;> cases h
      have hN' : s.length ≤ N := Nat.le_of_succ_le_succ hN
      have hr' := getLast_tail hr hs
      by_cases hsp : Space c
      · rw [if_pos hsp, Option.bind_some] at h
        obtain ⟨b, m, t, e, hb, hm, h1, h2⟩ := scan_esc_inv N hN' hr' h
        exact ⟨c :: b, m, t, by rw [e]; rfl, .space hsp hb, hm, h1, h2⟩
      · rw [if_neg hsp] at h
        by_cases h1 : c = '/'
        · subst h1
          rw [if_pos rfl, Option.bind_some] at h
          cases s with
          | nil => exact absurd rfl hs
          | cons d s =>
            rw [Scan.run] at h
            simp only [Scan.step, true_or, and_true] at h
            by_cases hd : d = '*'
            · subst hd
              simp only [if_true, Option.bind_some] at h
              obtain ⟨a, t, ha, rfl, ht⟩ := scan_body_inv (by trivial) h
              have ht0 : t ≠ [] := by rintro rfl; cases ht
              obtain ⟨b, m, t', e, hb, hm, h3, h4⟩ := scan_esc_inv N (s := t) (by simp at hN'; omega)
                (getLast_drop (a := '*' :: (a ++ ['*', '/'])) (by simpa using hr') ht0) ht
              exact ⟨'/' :: '*' :: (a ++ '*' :: '/' :: b), m, t', by rw [e]; simp, .comment ha hb, hm, h3, h4⟩
            · rw [if_neg hd] at h
              by_cases hd2 : d = '/'
              · subst hd2
                rw [if_pos rfl, Option.bind_some] at h
                have ht0 : s ≠ [] := by rintro rfl; cases h
                obtain ⟨b, m, t, e, hb, hm, h3, h4⟩ := scan_line_inv (getLast_tail hr' ht0) h
                refine ⟨[], '/' :: '/' :: (b ++ m), t, by rw [e]; simp, .nil, by simp, fun r => ?_, h4⟩
                exact .inr (.inl ⟨b, m, rfl, hb, .inl (h3 r)⟩)
              · rw [if_neg hd2] at h
                cases h
        · rw [if_neg h1] at h
          cases h

theorem scan_base_inv : ∀ (N : Nat) {s : Str}, s.length ≤ N → s.getLast? ≠ some '\r' → Scan.base.run z s = some .base →
    (∀ r, LSpace r s) ∧ (z = true → ∀ r, NSpace r s)
  | _, [], _, _, _ => ⟨fun _ => .nil, fun _ _ => .nil⟩
  | 0, _ :: _, hN, _, _ => by simp at hN
  | N + 1, c :: s, hN, hr, h => by
    have hN' : s.length ≤ N := Nat.le_of_succ_le_succ hN
    rw [Scan.run] at h
    simp only [Scan.step, Scan.stepBase] at h
    have tail : ∀ {t : Str}, t.length ≤ N → t ≠ [] → (∃ a, c :: s = a ++ t) → Scan.base.run z t = some .base →
        (∀ r, LSpace r t) ∧ (z = true → ∀ r, NSpace r t) := by
      rintro t h1 h2 ⟨a, e⟩ h3
      exact scan_base_inv N h1 (getLast_drop (a := a) (by rw [← e]; exact hr) h2) h3
    have tail' : ∀ {t : Str}, t.length ≤ N → (∃ a, c :: s = a ++ t) → Scan.base.run z t = some .base →
        (∀ r, LSpace r t) ∧ (z = true → ∀ r, NSpace r t) := by
      intro t h1 h2 h3
      by_cases ht : t = []
      · subst ht; exact ⟨fun _ => .nil, fun _ _ => .nil⟩
      · exact tail h1 ht h2 h3
    by_cases hsp : Space c
    · rw [if_pos hsp, Option.bind_some] at h
      obtain ⟨i1, i2⟩ := tail' hN' ⟨[c], rfl⟩ h
      exact ⟨fun r => .space hsp (i1 r), fun hz r => .space hsp (i2 hz r)⟩
    · rw [if_neg hsp] at h
      by_cases hc : Newline c
      · rw [if_pos hc] at h
        cases z with
        | true => cases h
        | false =>
          simp only [Bool.false_eq_true, if_false, Option.bind_some] at h
          refine ⟨fun r => ?_, by simp⟩
          by_cases hd : c = '\r' ∧ ∃ q, s = '\n' :: q
          · obtain ⟨rfl, q, rfl⟩ := hd
            have h2 : Scan.base.run false q = some .base := by
              rw [Scan.run] at h
              have : Scan.base.step false '\n' = some .base := by decide
              rwa [this, Option.bind_some] at h
            have := (tail' (t := q) (by simp at hN'; omega) ⟨['\r', '\n'], rfl⟩ h2).1 r
            exact .newline (m := ['\r', '\n']) (.inl rfl) this
          · refine .newline (m := [c]) (.inr ⟨c, rfl, hc, ?_⟩) ((tail' hN' ⟨[c], rfl⟩ h).1 r)
            rintro rfl q e
            cases s with
            | nil => exact hr rfl
            | cons d s => exact hd ⟨rfl, s, by rw [(List.cons.inj e).1]⟩
      · rw [if_neg hc] at h
        by_cases h1 : c = '/'
        · subst h1
          rw [if_pos rfl, Option.bind_some] at h
          cases s with
          | nil => cases h
          | cons d s =>
            rw [Scan.run] at h
            simp only [Scan.step] at h
            by_cases hd : d = '*'
            · subst hd
              simp only [if_true, Option.bind_some] at h
              obtain ⟨a, t, ha, rfl, ht⟩ := scan_body_inv (by trivial) h
              obtain ⟨i1, i2⟩ := tail' (t := t) (by simp at hN'; omega) ⟨'/' :: '*' :: (a ++ ['*', '/']), by simp⟩ ht
              exact ⟨fun r => .comment ha (i1 r), fun hz r => .comment ha (i2 hz r)⟩
            · rw [if_neg hd] at h
              by_cases hd2 : d = '/' ∧ (false = true ∨ z = false)
              · rw [if_pos hd2, Option.bind_some] at h
                obtain ⟨rfl, hz⟩ := hd2
                have hz : z = false := by simpa using hz
                have ht0 : s ≠ [] := by rintro rfl; cases h
                obtain ⟨b, m, t, e, hb, hm, h3, h4⟩ := scan_line_inv (getLast_drop (a := ['/', '/']) hr ht0) h
                subst e
                have hm0 : 0 < m.length := List.length_pos_iff.mpr hm
                obtain ⟨i1, _⟩ := tail' (t := t) (by simp at hN'; omega) ⟨'/' :: '/' :: (b ++ m), by simp⟩ h4
                refine ⟨fun r => ?_, by simp [hz]⟩
                have := LSpace.line (r := r) (m := '/' :: '/' :: (b ++ m)) ⟨b, m, rfl, hb, .inl (h3 r)⟩ (i1 r)
                simpa using this
              · rw [if_neg hd2] at h
                cases h
        · rw [if_neg h1] at h
          by_cases h2 : c = '\\'
          · subst h2
            rw [if_pos rfl, Option.bind_some] at h
            have hs : s ≠ [] := by rintro rfl; cases h
            obtain ⟨b, m, t, e, hb, hm, h3, h4⟩ := scan_esc_inv _ (Nat.le_refl _) (getLast_tail hr hs) h
            subst e
            have hm0 : 0 < m.length := List.length_pos_iff.mpr hm
            obtain ⟨i1, i2⟩ := tail' (t := t) (by simp at hN'; omega) ⟨'\\' :: (b ++ m), by simp⟩ h4
            exact ⟨fun r => .cont hb (h3 r) (i1 r), fun hz r => .cont hb (h3 r) (i2 hz r)⟩
          · rw [if_neg h2] at h
            cases h

/-- A text that the scanner reads is line space in front of anything. -/
theorem scan_lspace {s : Str} (hr : s.getLast? ≠ some '\r') (h : Scan.base.run z s = some .base) (r : Str) : LSpace r s :=
  (scan_base_inv _ (Nat.le_refl _) hr h).1 r

/-- A text that the strict scanner reads is node space in front of anything. -/
theorem scan_nspace {s : Str} (hr : s.getLast? ≠ some '\r') (h : Scan.base.run true s = some .base) (r : Str) : NSpace r s :=
  (scan_base_inv _ (Nat.le_refl _) hr h).2 rfl r

end Kdl
