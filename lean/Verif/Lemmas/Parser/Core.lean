import Verif.Model.Parser.Basic
/-
General facts about the parser combinators.
-/

namespace Kdl

variable {α β γ : Type}

/-! ### Inversion -/

theorem bind_ok {p : P α} {f : α → P β} {s r : Str} {b : β} :
    (p >>= f) s = .ok b r ↔ ∃ a r', p s = .ok a r' ∧ f a r' = .ok b r := by
  show P.bind p f s = _ ↔ _
  unfold P.bind
  cases p s with
  | ok a r' =>
    constructor
    · intro h; exact ⟨a, r', rfl, h⟩
    · rintro ⟨a', r'', h, h'⟩; cases h; exact h'
  | back => simp
  | cut => simp
  | crash => simp

theorem pure_ok {a b : α} {s r : Str} : (Pure.pure a : P α) s = .ok b r ↔ b = a ∧ r = s := by
  show P.pure a s = _ ↔ _
  simp [P.pure, eq_comm]

theorem alt_ok {p q : P α} {s r : Str} {a : α} :
    (p <+> q) s = .ok a r ↔ p s = .ok a r ∨ p s = .back ∧ q s = .ok a r := by
  unfold P.alt
  cases p s <;> simp

theorem here_ok {s t r : Str} : here s = .ok t r ↔ t = s ∧ r = s := by
  simp [here, eq_comm]

theorem failP_ok {s r : Str} {a : α} : (failP : P α) s = .ok a r ↔ False := by simp [failP]

theorem cutP_ok {s r : Str} {a : α} : (cutP : P α) s = .ok a r ↔ False := by simp [cutP]

theorem opt_ok {p : P α} {s r : Str} {o : Option α} :
    opt p s = .ok o r ↔ (∃ a, o = some a ∧ p s = .ok a r) ∨ (o = none ∧ r = s ∧ p s = .back) := by
  unfold opt
  cases p s with
  | ok a r' =>
    simp only [Res.ok.injEq, reduceCtorEq, and_false, or_false]
    constructor
    · rintro ⟨rfl, rfl⟩; exact ⟨a, rfl, rfl, rfl⟩
    · rintro ⟨a', rfl, rfl, rfl⟩; exact ⟨rfl, rfl⟩
  | back => simp [eq_comm]
  | cut => simp
  | crash => simp

theorem peek_ok {p : P α} {s r : Str} {a : α} :
    peek p s = .ok a r ↔ r = s ∧ ∃ r', p s = .ok a r' := by
  unfold peek
  cases h : p s <;> simp [eq_comm, and_comm]

theorem notP_ok {p : P α} {s r : Str} {u : Unit} :
    notP p s = .ok u r ↔ r = s ∧ p s = .back := by
  unfold notP
  cases h : p s <;> simp [eq_comm]

theorem cutErr_ok {p : P α} {s r : Str} {a : α} : cutErr p s = .ok a r ↔ p s = .ok a r := by
  unfold cutErr
  cases h : p s <;> simp

theorem void_ok {p : P α} {s r : Str} {u : Unit} : void p s = .ok u r ↔ ∃ a, p s = .ok a r := by
  unfold void
  simp [bind_ok, pure_ok]

theorem takeP_ok {p : P α} {s r t : Str} :
    takeP p s = .ok t r ↔ t = taken s r ∧ ∃ a, p s = .ok a r := by
  unfold takeP
  simp only [bind_ok, here_ok, pure_ok]
  constructor
  · rintro ⟨_, _, ⟨rfl, rfl⟩, a, r', h, _, _, ⟨rfl, rfl⟩, rfl, rfl⟩
    exact ⟨rfl, a, h⟩
  · rintro ⟨rfl, a, h⟩
    exact ⟨_, _, ⟨rfl, rfl⟩, a, r, h, _, _, ⟨rfl, rfl⟩, rfl, rfl⟩

theorem mapOpt_ok {p : P α} {f : α → Option β} {s r : Str} {b : β} :
    mapOpt p f s = .ok b r ↔ ∃ a, p s = .ok a r ∧ f a = some b := by
  unfold mapOpt
  simp only [bind_ok]
  constructor
  · rintro ⟨a, r', h, h'⟩
    cases hb : f a with
    | some b' =>
      rw [hb] at h'
      obtain ⟨rfl, rfl⟩ := pure_ok.mp h'
      exact ⟨a, h, hb⟩
    | none => rw [hb] at h'; exact absurd h' (by simp [failP])
  · rintro ⟨a, h, h'⟩
    exact ⟨a, r, h, by rw [h']; simp [pure_ok]⟩

theorem stripPrefix?_eq {t s r : Str} : stripPrefix? t s = some r ↔ s = t ++ r := by
  induction t generalizing s with
  | nil => simp [stripPrefix?]
  | cons c t ih =>
    cases s with
    | nil => simp [stripPrefix?]
    | cons d s =>
      simp only [stripPrefix?]
      split
      · rename_i h; subst h; simp [ih]
      · rename_i h; simp; intro h'; exact absurd h'.symm h

theorem lit_ok {t s r : Str} {u : Unit} : lit t s = .ok u r ↔ s = t ++ r := by
  unfold lit
  rw [← stripPrefix?_eq]
  cases stripPrefix? t s <;> simp

theorem lit_append (t r : Str) : lit t (t ++ r) = .ok () r := lit_ok.mpr rfl

theorem lit_one (c : Char) (r : Str) : lit [c] (c :: r) = .ok () r := lit_ok.mpr rfl

theorem lit_back {t s : Str} : lit t s = .back ↔ ∀ r, s ≠ t ++ r := by
  constructor
  · intro h r e
    rw [e, lit_append] at h
    cases h
  · intro h
    unfold lit
    cases h' : stripPrefix? t s with
    | none => rfl
    | some r => exact absurd (stripPrefix?_eq.mp h') (h r)

theorem lit_cons_ne {c d : Char} {t r : Str} (h : c ≠ d) : lit (c :: t) (d :: r) = .back := by
  rw [lit_back]; intro q e; simp at e; exact h e.1.symm

theorem lit_cons_nil {c : Char} {t : Str} : lit (c :: t) [] = .back := rfl

theorem satisfy_ok {f : Char → Bool} {s r : Str} {c : Char} :
    satisfy f s = .ok c r ↔ s = c :: r ∧ f c = true := by
  unfold satisfy
  cases s with
  | nil => simp
  | cons d s =>
    simp only
    by_cases h : f d = true
    · simp only [h, if_true, Res.ok.injEq, List.cons.injEq]
      constructor
      · rintro ⟨rfl, rfl⟩; exact ⟨⟨rfl, rfl⟩, h⟩
      · rintro ⟨⟨rfl, rfl⟩, _⟩; exact ⟨rfl, rfl⟩
    · rw [if_neg h]
      simp only [reduceCtorEq, List.cons.injEq, false_iff]
      rintro ⟨⟨rfl, rfl⟩, h'⟩; exact h h'

theorem satisfy_back {f : Char → Bool} {s : Str} :
    satisfy f s = .back ↔ ∀ c r, s = c :: r → f c = false := by
  unfold satisfy
  cases s with
  | nil => simp
  | cons d s =>
    by_cases h : f d = true
    · simp [h]
    · simp [h]

theorem anyChar_ok {s r : Str} {c : Char} : anyChar s = .ok c r ↔ s = c :: r := by
  simp [anyChar, satisfy_ok]

theorem eof_ok {s r : Str} {u : Unit} : eof s = .ok u r ↔ s = [] ∧ r = [] := by
  unfold eof; cases s <;> simp [eq_comm]

theorem eof_back {s : Str} : eof s = .back ↔ s ≠ [] := by
  unfold eof; cases s <;> simp

theorem takeWhile1_ok {f : Char → Bool} {s t r : Str} :
    takeWhile1 f s = .ok t r ↔ t = s.takeWhile f ∧ r = s.dropWhile f ∧ t ≠ [] := by
  unfold takeWhile1
  split
  · rename_i h; rw [h]; simp only [reduceCtorEq, false_iff]; rintro ⟨h1, _, h2⟩; exact h2 h1
  · rename_i h
    simp only [Res.ok.injEq]
    constructor
    · rintro ⟨h1, h2⟩; exact ⟨h1.symm, h2.symm, by rintro rfl; exact h h1⟩
    · rintro ⟨h1, h2, _⟩; exact ⟨h1.symm, h2.symm⟩

theorem takeWhile1_back {f : Char → Bool} {s : Str} :
    takeWhile1 f s = .back ↔ ∀ c r, s = c :: r → f c = false := by
  unfold takeWhile1
  cases s with
  | nil => simp
  | cons d s =>
    by_cases h : f d = true
    · simp [h]
    · simp [h]

/-! ### Forward evaluation -/

theorem bind_eq {p : P α} {f : α → P β} {s r : Str} {a : α} (h : p s = .ok a r) :
    (p >>= f) s = f a r := by
  show P.bind p f s = _
  simp [P.bind, h]

theorem bind_back {p : P α} {f : α → P β} {s : Str} (h : p s = .back) : (p >>= f) s = .back := by
  show P.bind p f s = _
  simp [P.bind, h]

theorem bind_cut {p : P α} {f : α → P β} {s : Str} (h : p s = .cut) : (p >>= f) s = .cut := by
  show P.bind p f s = _
  simp [P.bind, h]

theorem bind_crash {p : P α} {f : α → P β} {s : Str} (h : p s = .crash) : (p >>= f) s = .crash := by
  show P.bind p f s = _
  simp [P.bind, h]

theorem pure_eq {a : α} {s : Str} : (Pure.pure a : P α) s = .ok a s := rfl

theorem here_eq {s : Str} : here s = .ok s s := rfl

theorem bind_here {f : Str → P β} {s : Str} : (here >>= f) s = f s s := rfl

theorem alt_left {p q : P α} {s r : Str} {a : α} (h : p s = .ok a r) : (p <+> q) s = .ok a r := by
  simp [P.alt, h]

theorem alt_right {p q : P α} {s : Str} (h : p s = .back) : (p <+> q) s = q s := by
  simp [P.alt, h]

theorem alt_cut {p q : P α} {s : Str} (h : p s = .cut) : (p <+> q) s = .cut := by
  simp [P.alt, h]

theorem opt_some {p : P α} {s r : Str} {a : α} (h : p s = .ok a r) : opt p s = .ok (some a) r := by
  simp [opt, h]

theorem opt_none {p : P α} {s : Str} (h : p s = .back) : opt p s = .ok none s := by
  simp [opt, h]

theorem peek_eq {p : P α} {s r : Str} {a : α} (h : p s = .ok a r) : peek p s = .ok a s := by
  simp [peek, h]

theorem notP_eq {p : P α} {s : Str} (h : p s = .back) : notP p s = .ok () s := by
  simp [notP, h]

theorem notP_back {p : P α} {s r : Str} {a : α} (h : p s = .ok a r) : notP p s = .back := by
  simp [notP, h]

theorem cutErr_eq {p : P α} {s r : Str} {a : α} (h : p s = .ok a r) : cutErr p s = .ok a r := by
  simp [cutErr, h]

theorem void_eq {p : P α} {s r : Str} {a : α} (h : p s = .ok a r) : void p s = .ok () r :=
  void_ok.mpr ⟨a, h⟩

theorem void_back {p : P α} {s : Str} (h : p s = .back) : void p s = .back := bind_back h

theorem taken_append (t r : Str) : taken (t ++ r) r = t := by simp [taken]

theorem taken_self (s : Str) : taken s s = [] := by simp [taken]

theorem takeP_eq {p : P α} {t r : Str} {a : α} (h : p (t ++ r) = .ok a r) :
    takeP p (t ++ r) = .ok t r := takeP_ok.mpr ⟨(taken_append t r).symm, a, h⟩

theorem takeP_back {p : P α} {s : Str} (h : p s = .back) : takeP p s = .back := by
  unfold takeP
  rw [bind_here]
  exact bind_back h

theorem mapOpt_eq {p : P α} {f : α → Option β} {s r : Str} {a : α} {b : β} (h : p s = .ok a r)
    (h' : f a = some b) : mapOpt p f s = .ok b r := mapOpt_ok.mpr ⟨a, h, h'⟩

theorem satisfy_eq {f : Char → Bool} {c : Char} {r : Str} (h : f c = true) :
    satisfy f (c :: r) = .ok c r := satisfy_ok.mpr ⟨rfl, h⟩

/-! ### Consumption -/

/-- On success, what is left is a suffix of the input. -/
def Sfx (p : P α) : Prop := ∀ s a r, p s = .ok a r → ∃ t, s = t ++ r

/-- On success, at least one character is consumed. -/
def Strict (p : P α) : Prop := ∀ s a r, p s = .ok a r → ∃ t, t ≠ [] ∧ s = t ++ r

/-- No panic on inputs of less than `n` characters. -/
def OkTo (n : Nat) (p : P α) : Prop := ∀ s, s.length < n → p s ≠ .crash

/-- Never a backtracking error. -/
def NoBack (p : P α) : Prop := ∀ s, p s ≠ .back

protected theorem Strict.sfx {p : P α} (h : Strict p) : Sfx p := fun s a r e => by
  obtain ⟨t, _, ht⟩ := h s a r e; exact ⟨t, ht⟩

protected theorem Strict.lt {p : P α} (h : Strict p) {s r : Str} {a : α} (e : p s = .ok a r) :
    r.length < s.length := by
  obtain ⟨t, ht, rfl⟩ := h s a r e
  cases t with
  | nil => exact absurd rfl ht
  | cons c t => simp; omega

protected theorem Sfx.le {p : P α} (h : Sfx p) {s r : Str} {a : α} (e : p s = .ok a r) :
    r.length ≤ s.length := by
  obtain ⟨t, rfl⟩ := h s a r e; simp

protected theorem Sfx.strict_of_lt {p : P α} (h : Sfx p) (hl : ∀ s a r, p s = .ok a r → r.length < s.length) :
    Strict p := by
  intro s a r e
  obtain ⟨t, rfl⟩ := h s a r e
  refine ⟨t, ?_, rfl⟩
  rintro rfl
  have := hl _ _ _ e
  simp at this

protected theorem Sfx.taken {p : P α} (h : Sfx p) {s r : Str} {a : α} (e : p s = .ok a r) :
    s = Kdl.taken s r ++ r := by
  obtain ⟨t, rfl⟩ := h s a r e; rw [taken_append]

protected theorem Sfx.pure (a : α) : Sfx (Pure.pure a : P α) := by
  intro s b r h; rw [pure_ok] at h; exact ⟨[], by simp [h.2]⟩

protected theorem Sfx.bind {p : P α} {f : α → P β} (hp : Sfx p) (hf : ∀ a, Sfx (f a)) : Sfx (p >>= f) := by
  intro s b r h
  obtain ⟨a, r', h1, h2⟩ := bind_ok.mp h
  obtain ⟨t, rfl⟩ := hp _ _ _ h1
  obtain ⟨t', rfl⟩ := hf _ _ _ _ h2
  exact ⟨t ++ t', by simp⟩

protected theorem Strict.bind_left {p : P α} {f : α → P β} (hp : Strict p) (hf : ∀ a, Sfx (f a)) :
    Strict (p >>= f) := by
  intro s b r h
  obtain ⟨a, r', h1, h2⟩ := bind_ok.mp h
  obtain ⟨t, hne, rfl⟩ := hp _ _ _ h1
  obtain ⟨t', rfl⟩ := hf _ _ _ _ h2
  exact ⟨t ++ t', by simp [hne], by simp⟩

protected theorem Strict.bind_right {p : P α} {f : α → P β} (hp : Sfx p) (hf : ∀ a, Strict (f a)) :
    Strict (p >>= f) := by
  intro s b r h
  obtain ⟨a, r', h1, h2⟩ := bind_ok.mp h
  obtain ⟨t, rfl⟩ := hp _ _ _ h1
  obtain ⟨t', hne, rfl⟩ := hf _ _ _ _ h2
  exact ⟨t ++ t', by simp [hne], by simp⟩

protected theorem Sfx.alt {p q : P α} (hp : Sfx p) (hq : Sfx q) : Sfx (p <+> q) := by
  intro s a r h
  rcases alt_ok.mp h with h | ⟨_, h⟩
  · exact hp _ _ _ h
  · exact hq _ _ _ h

protected theorem Strict.alt {p q : P α} (hp : Strict p) (hq : Strict q) : Strict (p <+> q) := by
  intro s a r h
  rcases alt_ok.mp h with h | ⟨_, h⟩
  · exact hp _ _ _ h
  · exact hq _ _ _ h

protected theorem Sfx.here : Sfx here := by
  intro s a r h; rw [here_ok] at h; exact ⟨[], by simp [h.2]⟩

protected theorem Strict.failP : Strict (failP : P α) := by intro s a r h; simp [failP_ok] at h
protected theorem Strict.cutP : Strict (cutP : P α) := by intro s a r h; simp [cutP_ok] at h

protected theorem Sfx.opt {p : P α} (hp : Sfx p) : Sfx (opt p) := by
  intro s a r h
  rcases opt_ok.mp h with ⟨_, _, h⟩ | ⟨_, rfl, _⟩
  · exact hp _ _ _ h
  · exact ⟨[], rfl⟩

protected theorem Sfx.peek {p : P α} : Sfx (peek p) := by
  intro s a r h; rw [peek_ok] at h; exact ⟨[], by simp [h.1]⟩

protected theorem Sfx.notP {p : P α} : Sfx (notP p) := by
  intro s a r h; rw [notP_ok] at h; exact ⟨[], by simp [h.1]⟩

protected theorem Sfx.cutErr {p : P α} (hp : Sfx p) : Sfx (cutErr p) := by
  intro s a r h; exact hp _ _ _ (cutErr_ok.mp h)

protected theorem Strict.cutErr {p : P α} (hp : Strict p) : Strict (cutErr p) := by
  intro s a r h; exact hp _ _ _ (cutErr_ok.mp h)

protected theorem Sfx.void {p : P α} (hp : Sfx p) : Sfx (void p) := by
  intro s a r h; obtain ⟨a, h⟩ := void_ok.mp h; exact hp _ _ _ h

protected theorem Strict.void {p : P α} (hp : Strict p) : Strict (void p) := by
  intro s a r h; obtain ⟨a, h⟩ := void_ok.mp h; exact hp _ _ _ h

protected theorem Sfx.takeP {p : P α} (hp : Sfx p) : Sfx (takeP p) := by
  intro s a r h; obtain ⟨_, a, h⟩ := takeP_ok.mp h; exact hp _ _ _ h

protected theorem Strict.takeP {p : P α} (hp : Strict p) : Strict (takeP p) := by
  intro s a r h; obtain ⟨_, a, h⟩ := takeP_ok.mp h; exact hp _ _ _ h

protected theorem Sfx.mapOpt {p : P α} {f : α → Option β} (hp : Sfx p) : Sfx (mapOpt p f) := by
  intro s a r h; obtain ⟨a, h, _⟩ := mapOpt_ok.mp h; exact hp _ _ _ h

protected theorem Strict.mapOpt {p : P α} {f : α → Option β} (hp : Strict p) : Strict (mapOpt p f) := by
  intro s a r h; obtain ⟨a, h, _⟩ := mapOpt_ok.mp h; exact hp _ _ _ h

protected theorem Sfx.lit (t : Str) : Sfx (lit t) := by
  intro s a r h; exact ⟨t, lit_ok.mp h⟩

protected theorem Strict.lit {t : Str} (ht : t ≠ []) : Strict (lit t) := by
  intro s a r h; exact ⟨t, ht, lit_ok.mp h⟩

protected theorem Strict.satisfy (f : Char → Bool) : Strict (satisfy f) := by
  intro s a r h; exact ⟨[a], by simp, (satisfy_ok.mp h).1⟩

protected theorem Strict.anyChar : Strict anyChar := Strict.satisfy _

protected theorem Sfx.eof : Sfx eof := by
  intro s a r h; obtain ⟨rfl, rfl⟩ := eof_ok.mp h; exact ⟨[], rfl⟩

protected theorem Strict.takeWhile1 (f : Char → Bool) : Strict (takeWhile1 f) := by
  intro s a r h
  obtain ⟨h1, h2, h3⟩ := takeWhile1_ok.mp h
  exact ⟨a, h3, by rw [h1, h2, List.takeWhile_append_dropWhile]⟩

theorem takeWhile_prefix_take (f : Char → Bool) (n : Nat) (s : Str) :
    s = (s.take n).takeWhile f ++ s.drop ((s.take n).takeWhile f).length := by
  have h : (s.take n).takeWhile f <+: s :=
    (List.takeWhile_prefix f).trans (List.take_prefix n s)
  generalize (s.take n).takeWhile f = t at h
  obtain ⟨r, rfl⟩ := h
  simp

protected theorem Strict.takeWhile1to6 (f : Char → Bool) : Strict (takeWhile1to6 f) := by
  intro s a r h
  unfold Kdl.takeWhile1to6 at h
  split at h
  · simp at h
  · rename_i hne
    simp only [Res.ok.injEq] at h
    obtain ⟨rfl, rfl⟩ := h
    exact ⟨_, by intro e; exact hne e, takeWhile_prefix_take f 6 s⟩

/-! ### Repetition -/

theorem repFuel_stable (p : P α) (n m : Nat) (s : Str) (hn : s.length < n) (hm : s.length < m) :
    repFuel p n s = repFuel p m s := by
  induction n generalizing m s with
  | zero => omega
  | succ n ih =>
    cases m with
    | zero => omega
    | succ m =>
      simp only [repFuel]
      cases p s with
      | ok a r =>
        simp only
        split
        · rename_i hl
          rw [ih m r (by omega) (by omega)]
        · rfl
      | back => rfl
      | cut => rfl
      | crash => rfl

theorem rep0_unfold (p : P α) (s : Str) : rep0 p s =
    match p s with
    | .ok a r =>
      if r.length < s.length then
        match rep0 p r with
        | .ok as r' => .ok (a :: as) r'
        | .back => .back
        | .cut => .cut
        | .crash => .crash
      else .crash
    | .back => .ok [] s
    | .cut => .cut
    | .crash => .crash := by
  conv => lhs; unfold rep0
  simp only [repFuel]
  cases p s with
  | ok a r =>
    simp only
    split
    · rename_i hl
      rw [repFuel_stable p s.length (r.length + 1) r hl (by omega)]
      rfl
    · rfl
  | back => rfl
  | cut => rfl
  | crash => rfl

theorem rep0_nil {p : P α} {s : Str} (h : p s = .back) : rep0 p s = .ok [] s := by
  rw [rep0_unfold, h]

theorem rep0_cons {p : P α} {s r r' : Str} {a : α} {as : List α} (h : p s = .ok a r)
    (hl : r.length < s.length) (h' : rep0 p r = .ok as r') : rep0 p s = .ok (a :: as) r' := by
  rw [rep0_unfold, h]; simp [hl, h']

/-- Successful runs of `repeat(0.., p)`. -/
inductive Rep (p : P α) : Str → List α → Str → Prop
  | nil {s : Str} (h : p s = .back) : Rep p s [] s
  | cons {s r r' : Str} {a : α} {as : List α} (h : p s = .ok a r) (hl : r.length < s.length)
      (ht : Rep p r as r') : Rep p s (a :: as) r'

theorem rep0_of_rep {p : P α} {s r : Str} {l : List α} (h : Rep p s l r) : rep0 p s = .ok l r := by
  induction h with
  | nil h => exact rep0_nil h
  | cons h hl _ ih => exact rep0_cons h hl ih

theorem rep_of_rep0 {p : P α} {s r : Str} {l : List α} (h : rep0 p s = .ok l r) : Rep p s l r := by
  induction hn : s.length using Nat.strongRecOn generalizing s l with
  | ind n ih =>
    rw [rep0_unfold] at h
    cases hp : p s with
    | ok a q =>
      rw [hp] at h
      simp only at h
      split at h
      · rename_i hl
        cases hq : rep0 p q with
        | ok as q' =>
          rw [hq] at h
          simp only [Res.ok.injEq] at h
          obtain ⟨rfl, rfl⟩ := h
          exact .cons hp hl (ih q.length (by omega) hq rfl)
        | back => rw [hq] at h; simp at h
        | cut => rw [hq] at h; simp at h
        | crash => rw [hq] at h; simp at h
      · simp at h
    | back =>
      rw [hp] at h
      simp only [Res.ok.injEq] at h
      obtain ⟨rfl, rfl⟩ := h
      exact .nil hp
    | cut => rw [hp] at h; simp at h
    | crash => rw [hp] at h; simp at h

theorem rep0_ok {p : P α} {s r : Str} {l : List α} : rep0 p s = .ok l r ↔ Rep p s l r :=
  ⟨rep_of_rep0, rep0_of_rep⟩

theorem Rep.stop {p : P α} {s r : Str} {l : List α} (h : Rep p s l r) : p r = .back := by
  induction h with
  | nil h => exact h
  | cons _ _ _ ih => exact ih

theorem rep0_stop {p : P α} {s r : Str} {l : List α} (h : rep0 p s = .ok l r) : p r = .back :=
  (rep_of_rep0 h).stop

protected theorem Sfx.rep0 {p : P α} (hp : Sfx p) : Sfx (rep0 p) := by
  intro s l r h
  induction rep_of_rep0 h with
  | nil _ => exact ⟨[], rfl⟩
  | cons h1 hl ht ih =>
    obtain ⟨t, rfl⟩ := hp _ _ _ h1
    obtain ⟨t', rfl⟩ := ih (rep0_of_rep ht)
    exact ⟨t ++ t', by simp⟩

protected theorem Strict.rep1 {p : P α} (hp : Strict p) : Strict (rep1 p) :=
  hp.bind_left fun _ => hp.sfx.rep0.bind fun _ => Sfx.pure _

theorem rep1_ok {p : P α} {s r : Str} {l : List α} :
    rep1 p s = .ok l r ↔ ∃ a q as, p s = .ok a q ∧ rep0 p q = .ok as r ∧ l = a :: as := by
  unfold rep1
  simp only [bind_ok, pure_ok]
  constructor
  · rintro ⟨a, q, h1, as, q', h2, rfl, rfl⟩; exact ⟨a, q, as, h1, h2, rfl⟩
  · rintro ⟨a, q, as, h1, h2, rfl⟩; exact ⟨a, q, h1, as, r, h2, rfl, rfl⟩

theorem rep1_eq {p : P α} {s q r : Str} {a : α} {as : List α} (h : p s = .ok a q)
    (h' : rep0 p q = .ok as r) : rep1 p s = .ok (a :: as) r := rep1_ok.mpr ⟨a, q, as, h, h', rfl⟩

theorem rep1_back {p : P α} {s : Str} (h : p s = .back) : rep1 p s = .back := bind_back h

protected theorem NoBack.rep0 (p : P α) : NoBack (rep0 p) := by
  intro s
  induction hn : s.length using Nat.strongRecOn generalizing s with
  | ind n ih =>
    rw [rep0_unfold]
    cases p s with
    | ok a q =>
      simp only
      split
      · rename_i hl
        have := ih q.length (by omega) q rfl
        cases h : Kdl.rep0 p q <;> simp_all
      · simp
    | back => simp
    | cut => simp
    | crash => simp

theorem repTillFuel_stable (p : P α) (e : P β) (n m : Nat) (s : Str) (hn : s.length < n)
    (hm : s.length < m) : repTillFuel p e n s = repTillFuel p e m s := by
  induction n generalizing m s with
  | zero => omega
  | succ n ih =>
    cases m with
    | zero => omega
    | succ m =>
      simp only [repTillFuel]
      cases e s with
      | ok b r => rfl
      | back =>
        cases p s with
        | ok a r =>
          simp only
          split
          · rename_i hl
            rw [ih m r (by omega) (by omega)]
          · rfl
        | back => rfl
        | cut => rfl
        | crash => rfl
      | cut => rfl
      | crash => rfl

theorem repTill_unfold (p : P α) (e : P β) (s : Str) : repTill p e s =
    match e s with
    | .ok b r => .ok ([], b) r
    | .back =>
      match p s with
      | .ok a r =>
        if r.length < s.length then
          match repTill p e r with
          | .ok (as, b) r' => .ok (a :: as, b) r'
          | .back => .back
          | .cut => .cut
          | .crash => .crash
        else .crash
      | .back => .back
      | .cut => .cut
      | .crash => .crash
    | .cut => .cut
    | .crash => .crash := by
  conv => lhs; unfold repTill
  simp only [repTillFuel]
  cases e s with
  | ok b r => rfl
  | back =>
    cases p s with
    | ok a r =>
      simp only
      split
      · rename_i hl
        rw [repTillFuel_stable p e s.length (r.length + 1) r hl (by omega)]
        rfl
      · rfl
    | back => rfl
    | cut => rfl
    | crash => rfl
  | cut => rfl
  | crash => rfl

/-- Successful runs of `repeat_till(0.., p, e)`. -/
inductive RepTill (p : P α) (e : P β) : Str → List α → β → Str → Prop
  | nil {s r : Str} {b : β} (h : e s = .ok b r) : RepTill p e s [] b r
  | cons {s r r' : Str} {a : α} {as : List α} {b : β} (he : e s = .back) (h : p s = .ok a r)
      (hl : r.length < s.length) (ht : RepTill p e r as b r') : RepTill p e s (a :: as) b r'

theorem repTill_of {p : P α} {e : P β} {s r : Str} {l : List α} {b : β}
    (h : RepTill p e s l b r) : repTill p e s = .ok (l, b) r := by
  induction h with
  | nil h => rw [repTill_unfold, h]
  | cons he h hl _ ih => rw [repTill_unfold, he, h]; simp [hl, ih]

theorem repTill_inv {p : P α} {e : P β} {s r : Str} {l : List α} {b : β}
    (h : repTill p e s = .ok (l, b) r) : RepTill p e s l b r := by
  induction hn : s.length using Nat.strongRecOn generalizing s l with
  | ind n ih =>
    rw [repTill_unfold] at h
    cases he : e s with
    | ok b' q =>
      rw [he] at h
      simp only [Res.ok.injEq, Prod.mk.injEq] at h
      obtain ⟨⟨rfl, rfl⟩, rfl⟩ := h
      exact .nil he
    | back =>
      rw [he] at h
      simp only at h
      cases hp : p s with
      | ok a q =>
        rw [hp] at h
        simp only at h
        split at h
        · rename_i hl
          cases hq : repTill p e q with
          | ok x q' =>
            obtain ⟨as, b'⟩ := x
            rw [hq] at h
            simp only [Res.ok.injEq, Prod.mk.injEq] at h
            obtain ⟨⟨rfl, rfl⟩, rfl⟩ := h
            exact .cons he hp hl (ih q.length (by omega) hq rfl)
          | back => rw [hq] at h; simp at h
          | cut => rw [hq] at h; simp at h
          | crash => rw [hq] at h; simp at h
        · simp at h
      | back => rw [hp] at h; simp at h
      | cut => rw [hp] at h; simp at h
      | crash => rw [hp] at h; simp at h
    | cut => rw [he] at h; simp at h
    | crash => rw [he] at h; simp at h

protected theorem Sfx.repTill {p : P α} {e : P β} (hp : Sfx p) (he : Sfx e) : Sfx (repTill p e) := by
  rintro s ⟨l, b⟩ r h
  induction repTill_inv h with
  | nil h1 => exact he _ _ _ h1
  | cons _ h1 hl ht ih =>
    obtain ⟨t, rfl⟩ := hp _ _ _ h1
    obtain ⟨t', rfl⟩ := ih (repTill_of ht)
    exact ⟨t ++ t', by simp⟩

protected theorem Strict.repTill {p : P α} {e : P β} (hp : Sfx p) (he : Strict e) : Strict (repTill p e) := by
  rintro s ⟨l, b⟩ r h
  induction repTill_inv h with
  | nil h1 => exact he _ _ _ h1
  | cons _ h1 hl ht ih =>
    obtain ⟨t, rfl⟩ := hp _ _ _ h1
    obtain ⟨t', hne, rfl⟩ := ih (repTill_of ht)
    exact ⟨t ++ t', by simp [hne], by simp⟩

theorem sepFuel_stable (p : P α) (sep : P β) (hp : Sfx p) (n m : Nat) (s : Str) (hn : s.length < n)
    (hm : s.length < m) : sepFuel p sep n s = sepFuel p sep m s := by
  induction n generalizing m s with
  | zero => omega
  | succ n ih =>
    cases m with
    | zero => omega
    | succ m =>
      simp only [sepFuel]
      cases sep s with
      | ok b r =>
        simp only
        split
        · rename_i hl
          cases hpr : p r with
          | ok a r' =>
            have := hp.le hpr
            simp only
            rw [ih m r' (by omega) (by omega)]
          | back => rfl
          | cut => rfl
          | crash => rfl
        · rfl
      | back => rfl
      | cut => rfl
      | crash => rfl

theorem sepMore_unfold (p : P α) (sep : P β) (hp : Sfx p) (s : Str) : sepMore p sep s =
    match sep s with
    | .ok _ r =>
      if r.length < s.length then
        match p r with
        | .ok a r' =>
          match sepMore p sep r' with
          | .ok as r'' => .ok (a :: as) r''
          | .back => .back
          | .cut => .cut
          | .crash => .crash
        | .back => .ok [] s
        | .cut => .cut
        | .crash => .crash
      else .crash
    | .back => .ok [] s
    | .cut => .cut
    | .crash => .crash := by
  conv => lhs; unfold sepMore
  simp only [sepFuel]
  cases sep s with
  | ok b r =>
    simp only
    split
    · rename_i hl
      cases hpr : p r with
      | ok a r' =>
        have := hp.le hpr
        simp only
        rw [sepFuel_stable p sep hp s.length (r'.length + 1) r' (by omega) (by omega)]
        rfl
      | back => rfl
      | cut => rfl
      | crash => rfl
    · rfl
  | back => rfl
  | cut => rfl
  | crash => rfl

/-- Successful runs of `separated`, after the first element. -/
inductive SepMore (p : P α) (sep : P β) : Str → List α → Str → Prop
  | nil {s : Str} (h : sep s = .back) : SepMore p sep s [] s
  | stop {s q : Str} {b : β} (h : sep s = .ok b q) (hl : q.length < s.length)
      (hp : p q = .back) : SepMore p sep s [] s
  | cons {s q r r' : Str} {a : α} {b : β} {as : List α} (h : sep s = .ok b q)
      (hl : q.length < s.length) (hp : p q = .ok a r) (ht : SepMore p sep r as r') :
      SepMore p sep s (a :: as) r'

theorem sepMore_of {p : P α} {sep : P β} (hsfx : Sfx p) {s r : Str} {l : List α}
    (h : SepMore p sep s l r) : sepMore p sep s = .ok l r := by
  induction h with
  | nil h => rw [sepMore_unfold p sep hsfx, h]
  | stop h hl hp => rw [sepMore_unfold p sep hsfx, h]; simp [hl, hp]
  | cons h hl hp _ ih => rw [sepMore_unfold p sep hsfx, h]; simp [hl, hp, ih]

theorem sepMore_inv {p : P α} {sep : P β} (hsfx : Sfx p) {s r : Str} {l : List α}
    (h : sepMore p sep s = .ok l r) : SepMore p sep s l r := by
  induction hn : s.length using Nat.strongRecOn generalizing s l with
  | ind n ih =>
    rw [sepMore_unfold p sep hsfx] at h
    cases he : sep s with
    | ok b q =>
      rw [he] at h
      simp only at h
      split at h
      · rename_i hl
        cases hp : p q with
        | ok a q1 =>
          rw [hp] at h
          simp only at h
          cases hq : sepMore p sep q1 with
          | ok as q2 =>
            rw [hq] at h
            simp only [Res.ok.injEq] at h
            obtain ⟨rfl, rfl⟩ := h
            have := hsfx.le hp
            exact .cons he hl hp (ih q1.length (by omega) hq rfl)
          | back => rw [hq] at h; simp at h
          | cut => rw [hq] at h; simp at h
          | crash => rw [hq] at h; simp at h
        | back =>
          rw [hp] at h
          simp only [Res.ok.injEq] at h
          obtain ⟨rfl, rfl⟩ := h
          exact .stop he hl hp
        | cut => rw [hp] at h; simp at h
        | crash => rw [hp] at h; simp at h
      · simp at h
    | back =>
      rw [he] at h
      simp only [Res.ok.injEq] at h
      obtain ⟨rfl, rfl⟩ := h
      exact .nil he
    | cut => rw [he] at h; simp at h
    | crash => rw [he] at h; simp at h

protected theorem Sfx.sepMore {p : P α} {sep : P β} (hp : Sfx p) (hs : Sfx sep) : Sfx (sepMore p sep) := by
  intro s l r h
  induction sepMore_inv hp h with
  | nil _ => exact ⟨[], rfl⟩
  | stop _ _ _ => exact ⟨[], rfl⟩
  | cons h1 _ h2 ht ih =>
    obtain ⟨t, rfl⟩ := hs _ _ _ h1
    obtain ⟨t', rfl⟩ := hp _ _ _ h2
    obtain ⟨t'', rfl⟩ := ih (sepMore_of hp ht)
    exact ⟨t ++ (t' ++ t''), by simp⟩

theorem sep1_ok {p : P α} {sep : P β} {s r : Str} {l : List α} :
    sep1 p sep s = .ok l r ↔ ∃ a q as, p s = .ok a q ∧ sepMore p sep q = .ok as r ∧ l = a :: as := by
  unfold sep1
  simp only [bind_ok, pure_ok]
  constructor
  · rintro ⟨a, q, h1, as, q', h2, rfl, rfl⟩; exact ⟨a, q, as, h1, h2, rfl⟩
  · rintro ⟨a, q, as, h1, h2, rfl⟩; exact ⟨a, q, h1, as, r, h2, rfl, rfl⟩

protected theorem Sfx.sep1 {p : P α} {sep : P β} (hp : Sfx p) (hs : Sfx sep) : Sfx (sep1 p sep) :=
  hp.bind fun _ => (Sfx.sepMore hp hs).bind fun _ => Sfx.pure _

protected theorem Strict.sep1 {p : P α} {sep : P β} (hp : Strict p) (hs : Sfx sep) : Strict (sep1 p sep) :=
  hp.bind_left fun _ => (Sfx.sepMore hp.sfx hs).bind fun _ => Sfx.pure _

theorem sep0_ok {p : P α} {sep : P β} {s r : Str} {l : List α} :
    sep0 p sep s = .ok l r ↔ (p s = .back ∧ l = [] ∧ r = s) ∨
      ∃ a q as, p s = .ok a q ∧ sepMore p sep q = .ok as r ∧ l = a :: as := by
  unfold sep0
  cases hp : p s with
  | ok a q =>
    simp only
    cases hq : sepMore p sep q with
    | ok as q' =>
      simp only [Res.ok.injEq, reduceCtorEq, false_and, false_or]
      constructor
      · rintro ⟨rfl, rfl⟩; exact ⟨a, q, as, ⟨rfl, rfl⟩, hq, rfl⟩
      · rintro ⟨a', q1, as', ⟨rfl, rfl⟩, h2, rfl⟩
        rw [hq] at h2; cases h2; exact ⟨rfl, rfl⟩
    | back => simp [hq]
    | cut => simp [hq]
    | crash => simp [hq]
  | back => simp [eq_comm, and_comm]
  | cut => simp
  | crash => simp

protected theorem Sfx.sep0 {p : P α} {sep : P β} (hp : Sfx p) (hs : Sfx sep) : Sfx (sep0 p sep) := by
  intro s l r h
  rcases sep0_ok.mp h with ⟨_, _, rfl⟩ | ⟨a, q, as, h1, h2, _⟩
  · exact ⟨[], rfl⟩
  · obtain ⟨t, rfl⟩ := hp _ _ _ h1
    obtain ⟨t', rfl⟩ := Sfx.sepMore hp hs _ _ _ h2
    exact ⟨t ++ t', by simp⟩

/-! ### No panics -/

protected theorem OkTo.mono {p : P α} {n m : Nat} (h : OkTo m p) (hnm : n ≤ m) : OkTo n p :=
  fun s hs => h s (by omega)

protected theorem OkTo.pure (n : Nat) (a : α) : OkTo n (Pure.pure a : P α) := by
  intro s _ h; rw [pure_eq] at h; cases h

protected theorem OkTo.bind {p : P α} {f : α → P β} {n : Nat} (hp : OkTo n p) (hs : Sfx p)
    (hf : ∀ a, OkTo n (f a)) : OkTo n (p >>= f) := by
  intro s hl h
  cases hps : p s with
  | ok a r => rw [bind_eq hps] at h; exact hf a r (by have := hs.le hps; omega) h
  | back => rw [bind_back hps] at h; cases h
  | cut => rw [bind_cut hps] at h; cases h
  | crash => exact hp s hl hps

/-- After a strict parser the budget may be smaller. -/
protected theorem OkTo.bind_strict {p : P α} {f : α → P β} {n : Nat} (hp : OkTo (n + 1) p) (hs : Strict p)
    (hf : ∀ a, OkTo n (f a)) : OkTo (n + 1) (p >>= f) := by
  intro s hl h
  cases hps : p s with
  | ok a r => rw [bind_eq hps] at h; exact hf a r (by have := hs.lt hps; omega) h
  | back => rw [bind_back hps] at h; cases h
  | cut => rw [bind_cut hps] at h; cases h
  | crash => exact hp s hl hps

protected theorem OkTo.alt {p q : P α} {n : Nat} (hp : OkTo n p) (hq : OkTo n q) : OkTo n (p <+> q) := by
  intro s hl h
  cases hps : p s with
  | ok a r => rw [alt_left hps] at h; cases h
  | back => rw [alt_right hps] at h; exact hq s hl h
  | cut => rw [alt_cut hps] at h; cases h
  | crash => exact hp s hl hps

protected theorem OkTo.here (n : Nat) : OkTo n here := by intro s _ h; cases h
protected theorem OkTo.failP (n : Nat) : OkTo n (failP : P α) := by intro s _ h; cases h
protected theorem OkTo.cutP (n : Nat) : OkTo n (cutP : P α) := by intro s _ h; cases h

protected theorem OkTo.opt {p : P α} {n : Nat} (hp : OkTo n p) : OkTo n (opt p) := by
  intro s hl h
  unfold Kdl.opt at h
  cases hps : p s <;> simp [hps] at h
  exact hp s hl hps

protected theorem OkTo.peek {p : P α} {n : Nat} (hp : OkTo n p) : OkTo n (peek p) := by
  intro s hl h
  unfold Kdl.peek at h
  cases hps : p s <;> simp [hps] at h
  exact hp s hl hps

protected theorem OkTo.notP {p : P α} {n : Nat} (hp : OkTo n p) : OkTo n (notP p) := by
  intro s hl h
  unfold Kdl.notP at h
  cases hps : p s <;> simp [hps] at h
  exact hp s hl hps

protected theorem OkTo.cutErr {p : P α} {n : Nat} (hp : OkTo n p) : OkTo n (cutErr p) := by
  intro s hl h
  unfold Kdl.cutErr at h
  cases hps : p s <;> simp [hps] at h
  exact hp s hl hps

protected theorem OkTo.void {p : P α} {n : Nat} (hp : OkTo n p) : OkTo n (void p) := by
  intro s hl h
  cases hps : p s with
  | ok a r => rw [void_eq hps] at h; cases h
  | back => rw [void_back hps] at h; cases h
  | cut => rw [show Kdl.void p s = .cut from bind_cut hps] at h; cases h
  | crash => exact hp s hl hps

protected theorem OkTo.takeP {p : P α} {n : Nat} (hp : OkTo n p) : OkTo n (takeP p) := by
  intro s hl h
  unfold Kdl.takeP at h
  rw [bind_here] at h
  cases hps : p s with
  | ok a r => rw [bind_eq hps, bind_here, pure_eq] at h; cases h
  | back => rw [bind_back hps] at h; cases h
  | cut => rw [bind_cut hps] at h; cases h
  | crash => exact hp s hl hps

protected theorem OkTo.mapOpt {p : P α} {f : α → Option β} {n : Nat} (hp : OkTo n p) :
    OkTo n (mapOpt p f) := by
  intro s hl h
  unfold Kdl.mapOpt at h
  cases hps : p s with
  | ok a r =>
    rw [bind_eq hps] at h
    cases hf : f a <;> simp [hf, pure_eq, Kdl.failP] at h
  | back => rw [bind_back hps] at h; cases h
  | cut => rw [bind_cut hps] at h; cases h
  | crash => exact hp s hl hps

protected theorem OkTo.lit (n : Nat) (t : Str) : OkTo n (lit t) := by
  intro s _ h; unfold Kdl.lit at h; split at h <;> cases h
protected theorem OkTo.satisfy (n : Nat) (f : Char → Bool) : OkTo n (satisfy f) := by
  intro s _ h; unfold Kdl.satisfy at h; cases s <;> simp at h; split at h <;> cases h
protected theorem OkTo.anyChar (n : Nat) : OkTo n anyChar := OkTo.satisfy n _
protected theorem OkTo.eof (n : Nat) : OkTo n eof := by
  intro s _ h; cases s <;> cases h
protected theorem OkTo.takeWhile1 (n : Nat) (f : Char → Bool) : OkTo n (takeWhile1 f) := by
  intro s _ h; unfold Kdl.takeWhile1 at h; split at h <;> cases h
protected theorem OkTo.takeWhile1to6 (n : Nat) (f : Char → Bool) : OkTo n (takeWhile1to6 f) := by
  intro s _ h; unfold Kdl.takeWhile1to6 at h; split at h <;> cases h

protected theorem OkTo.rep0 {p : P α} {n : Nat} (hp : OkTo n p) (hs : Strict p) : OkTo n (rep0 p) := by
  intro s hl
  induction hn : s.length using Nat.strongRecOn generalizing s with
  | ind m ih =>
    rw [rep0_unfold]
    cases hps : p s with
    | ok a q =>
      have hq := hs.lt hps
      have := ih q.length (by omega) q (by omega) rfl
      simp only [hq, if_true]
      cases h : Kdl.rep0 p q <;> simp_all
    | back => simp
    | cut => simp
    | crash => exact absurd hps (hp s hl)

protected theorem OkTo.rep1 {p : P α} {n : Nat} (hp : OkTo n p) (hs : Strict p) : OkTo n (rep1 p) :=
  hp.bind hs.sfx fun _ => (OkTo.rep0 hp hs).bind hs.sfx.rep0 fun _ => OkTo.pure _ _

protected theorem OkTo.repTill {p : P α} {e : P β} {n : Nat} (hp : OkTo n p) (hs : Strict p)
    (he : OkTo n e) : OkTo n (repTill p e) := by
  intro s hl
  induction hn : s.length using Nat.strongRecOn generalizing s with
  | ind m ih =>
    rw [repTill_unfold]
    cases hes : e s with
    | ok b r => simp
    | back =>
      simp only
      cases hps : p s with
      | ok a q =>
        have hq := hs.lt hps
        have := ih q.length (by omega) q (by omega) rfl
        simp only [hq, if_true]
        cases h : Kdl.repTill p e q <;> simp_all
      | back => simp
      | cut => simp
      | crash => exact absurd hps (hp s hl)
    | cut => simp
    | crash => exact absurd hes (he s hl)

protected theorem OkTo.sepMore {p : P α} {sep : P β} {n : Nat} (hp : OkTo n p) (hps : Sfx p)
    (hs : OkTo n sep) (hss : Strict sep) : OkTo n (sepMore p sep) := by
  intro s hl
  induction hn : s.length using Nat.strongRecOn generalizing s with
  | ind m ih =>
    rw [sepMore_unfold p sep hps]
    cases hes : sep s with
    | ok b q =>
      have hq := hss.lt hes
      simp only [hq, if_true]
      cases hpq : p q with
      | ok a r =>
        have hr := hps.le hpq
        have := ih r.length (by omega) r (by omega) rfl
        simp only
        cases h : Kdl.sepMore p sep r <;> simp_all
      | back => simp
      | cut => simp
      | crash => exact absurd hpq (hp q (by omega))
    | back => simp
    | cut => simp
    | crash => exact absurd hes (hs s hl)

protected theorem OkTo.sep1 {p : P α} {sep : P β} {n : Nat} (hp : OkTo n p) (hps : Sfx p)
    (hs : OkTo n sep) (hss : Strict sep) : OkTo n (sep1 p sep) :=
  hp.bind hps fun _ =>
    (OkTo.sepMore hp hps hs hss).bind (Sfx.sepMore hps hss.sfx) fun _ => OkTo.pure _ _

protected theorem OkTo.sep0 {p : P α} {sep : P β} {n : Nat} (hp : OkTo n p) (hps : Sfx p)
    (hs : OkTo n sep) (hss : Strict sep) : OkTo n (sep0 p sep) := by
  intro s hl h
  unfold Kdl.sep0 at h
  cases hpsx : p s with
  | ok a r =>
    have := OkTo.sepMore hp hps hs hss r (by have := hps.le hpsx; omega)
    rw [hpsx] at h
    simp only at h
    cases h' : Kdl.sepMore p sep r <;> simp_all
  | back => simp [hpsx] at h
  | cut => simp [hpsx] at h
  | crash => exact hp s hl hpsx

/-! ### No backtracking errors -/

protected theorem NoBack.bind {p : P α} {f : α → P β} (hp : NoBack p) (hf : ∀ a, NoBack (f a)) :
    NoBack (p >>= f) := by
  intro s h
  cases hps : p s with
  | ok a r => rw [bind_eq hps] at h; exact hf a r h
  | back => exact hp s hps
  | cut => rw [bind_cut hps] at h; cases h
  | crash => rw [bind_crash hps] at h; cases h

protected theorem NoBack.pure (a : α) : NoBack (Pure.pure a : P α) := by
  intro s h; rw [pure_eq] at h; cases h
protected theorem NoBack.here : NoBack here := by intro s h; cases h
protected theorem NoBack.cutP : NoBack (cutP : P α) := by intro s h; cases h

protected theorem NoBack.alt_right {p q : P α} (hq : NoBack q) : NoBack (p <+> q) := by
  intro s h
  cases hps : p s with
  | ok a r => rw [alt_left hps] at h; cases h
  | back => rw [Kdl.alt_right hps] at h; exact hq s h
  | cut => rw [alt_cut hps] at h; cases h
  | crash => simp [P.alt, hps] at h

protected theorem NoBack.opt (p : P α) : NoBack (opt p) := by
  intro s h; unfold Kdl.opt at h; cases hps : p s <;> simp [hps] at h
protected theorem NoBack.cutErr (p : P α) : NoBack (cutErr p) := by
  intro s h; unfold Kdl.cutErr at h; cases hps : p s <;> simp [hps] at h
protected theorem NoBack.peek {p : P α} (hp : NoBack p) : NoBack (peek p) := by
  intro s h; unfold Kdl.peek at h; cases hps : p s <;> simp [hps] at h; exact hp s hps
protected theorem NoBack.void {p : P α} (hp : NoBack p) : NoBack (void p) := hp.bind fun _ => NoBack.pure _
protected theorem NoBack.takeP {p : P α} (hp : NoBack p) : NoBack (takeP p) :=
  NoBack.here.bind fun _ => hp.bind fun _ => NoBack.here.bind fun _ => NoBack.pure _

end Kdl
