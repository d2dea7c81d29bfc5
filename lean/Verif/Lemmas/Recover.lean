import Verif.Model.Recover
import Verif.Lemmas.Parser.Total
/-
The parser with recovery follows the strict parser exactly until the strict parser fails
with a `Cut` error; from then on at least one error is recorded, and stays recorded.
-/

namespace Kdl

variable {α β γ δ : Type}

/-- The input only shrinks and errors are only added. -/
def Fwd (q : R α) : Prop := ∀ s l,
  match q s l with
  | .ok _ r l' => r.length ≤ s.length ∧ l.length ≤ l'.length
  | .back l' => l.length ≤ l'.length
  | .cut _ l' => l.length ≤ l'.length
  | .crash => True

/-- Success consumes input. -/
def Eats (q : R α) : Prop := ∀ s l a r l', q s l = .ok a r l' → r.length < s.length

/-- No panic on inputs of fewer than `n` characters. -/
def Safe (n : Nat) (q : R α) : Prop := ∀ s l, s.length < n → q s l ≠ .crash

/-- There is an error that was not there with `l` errors. -/
def Bad (l : List Region) : RRes α → Prop
  | .ok _ _ l' => l.length < l'.length
  | .back l' => l.length < l'.length
  | .cut _ l' => l.length ≤ l'.length
  | .crash => True

/-- `q` follows `p`. -/
def Sim (f : α → β) (p : P α) (q : R β) : Prop := ∀ s l,
  match p s with
  | .ok a r => q s l = .ok (f a) r l
  | .back => q s l = .back l
  | .cut => Bad l (q s l)
  | .crash => True

theorem Bad.trans {l l' : List Region} {x : RRes α} (h : l.length ≤ l'.length) (hx : Bad l' x) : Bad l x := by
  cases x <;> simp only [Bad] at * <;> omega

namespace R

theorem bind_def (q : R α) (g : α → R β) (s : Str) (l : List Region) : (q >>= g) s l =
    match q s l with
    | .ok a r l => g a r l
    | .back l => .back l
    | .cut e l => .cut e l
    | .crash => .crash := rfl

theorem pure_def (a : α) (s : Str) (l : List Region) : (Pure.pure a : R α) s l = .ok a s l := rfl

end R

/-! ### Forward -/

protected theorem Fwd.pure (a : α) : Fwd (Pure.pure a : R α) := fun s l => by
  simp [R.pure_def]

protected theorem Fwd.here : Fwd R.here := fun s l => by simp [R.here]
protected theorem Fwd.failP : Fwd (R.failP : R α) := fun s l => by simp [R.failP]

protected theorem Fwd.bind {q : R α} {g : α → R β} (hq : Fwd q) (hg : ∀ a, Fwd (g a)) : Fwd (q >>= g) := by
  intro s l
  rw [R.bind_def]
  have h := hq s l
  cases hs : q s l with
  | ok a r l' =>
    simp only [hs] at h
    have h2 := hg a r l'
    cases h3 : g a r l' <;> simp only [h3] at h2 ⊢ <;> omega
  | back l' => simp only [hs] at h ⊢; exact h
  | cut e l' => simp only [hs] at h ⊢; exact h
  | crash => trivial

protected theorem Fwd.lift {p : P α} (hp : Sfx p) : Fwd (R.lift p) := by
  intro s l
  unfold R.lift
  cases h : p s with
  | ok a r => exact ⟨hp.le h, Nat.le_refl _⟩
  | back => exact Nat.le_refl _
  | cut => exact Nat.le_refl _
  | crash => trivial

protected theorem Fwd.alt {p q : R α} (hp : Fwd p) (hq : Fwd q) : Fwd (R.alt p q) := by
  intro s l
  unfold R.alt
  have h := hp s l
  cases hs : p s l with
  | back l' =>
    simp only [hs] at h ⊢
    have h2 := hq s l'
    cases h3 : q s l' <;> simp only [h3] at h2 ⊢ <;> omega
  | ok a r l' => simp only [hs] at h ⊢; exact h
  | cut e l' => simp only [hs] at h ⊢; exact h
  | crash => trivial

protected theorem Fwd.opt {p : R α} (hp : Fwd p) : Fwd (R.opt p) := by
  intro s l
  unfold R.opt
  have h := hp s l
  cases hs : p s l <;> simp only [hs] at h ⊢ <;> omega

protected theorem Fwd.cutErr {p : R α} (hp : Fwd p) : Fwd (R.cutErr p) := by
  intro s l
  unfold R.cutErr
  have h := hp s l
  cases hs : p s l <;> simp only [hs] at h ⊢ <;> omega

protected theorem Fwd.void {p : R α} (hp : Fwd p) : Fwd (R.void p) := hp.bind fun _ => .pure _
protected theorem Fwd.takeP {p : R α} (hp : Fwd p) : Fwd (R.takeP p) :=
  Fwd.here.bind fun _ => hp.bind fun _ => Fwd.here.bind fun _ => .pure _

protected theorem Fwd.repFuel {p : R α} (hp : Fwd p) (n : Nat) : Fwd (R.repFuel p n) := by
  induction n with
  | zero => intro s l; simp [R.repFuel]
  | succ n ih =>
    intro s l
    unfold R.repFuel
    have h := hp s l
    cases hs : p s l with
    | ok a r l' =>
      simp only [hs] at h ⊢
      by_cases hlt : r.length < s.length
      · simp only [hlt, if_true]
        have h2 := ih r l'
        cases h3 : R.repFuel p n r l' <;> simp only [h3] at h2 ⊢ <;> omega
      · simp only [hlt, if_false]
    | back l' => simp only [hs] at h ⊢; omega
    | cut e l' => simp only [hs] at h ⊢; omega
    | crash => trivial

protected theorem Fwd.rep0 {p : R α} (hp : Fwd p) : Fwd (R.rep0 p) := fun s l => Fwd.repFuel hp _ s l

protected theorem Fwd.sepFuel {p : R α} {sep : R β} (hp : Fwd p) (hs : Fwd sep) (n : Nat) :
    Fwd (R.sepFuel p sep n) := by
  induction n with
  | zero => intro s l; simp [R.sepFuel]
  | succ n ih =>
    intro s l
    unfold R.sepFuel
    have h := hs s l
    cases hss : sep s l with
    | ok b r l' =>
      simp only [hss] at h ⊢
      by_cases hlt : r.length < s.length
      · simp only [hlt, if_true]
        have h2 := hp r l'
        cases h3 : p r l' with
        | ok a r' l'' =>
          simp only [h3] at h2 ⊢
          have h4 := ih r' l''
          cases h5 : R.sepFuel p sep n r' l'' <;> simp only [h5] at h4 ⊢ <;> omega
        | back l'' => simp only [h3] at h2 ⊢; omega
        | cut e l'' => simp only [h3] at h2 ⊢; omega
        | crash => trivial
      · simp only [hlt, if_false]
    | back l' => simp only [hss] at h ⊢; omega
    | cut e l' => simp only [hss] at h ⊢; omega
    | crash => trivial

protected theorem Fwd.sepMore {p : R α} {sep : R β} (hp : Fwd p) (hs : Fwd sep) : Fwd (R.sepMore p sep) :=
  fun s l => Fwd.sepFuel hp hs _ s l

protected theorem Fwd.sep1 {p : R α} {sep : R β} (hp : Fwd p) (hs : Fwd sep) : Fwd (R.sep1 p sep) :=
  hp.bind fun _ => (Fwd.sepMore hp hs).bind fun _ => .pure _

protected theorem Fwd.sep0 {p : R α} {sep : R β} (hp : Fwd p) (hs : Fwd sep) : Fwd (R.sep0 p sep) := by
  intro s l
  unfold R.sep0
  have h := hp s l
  cases hps : p s l with
  | ok a r l' =>
    simp only [hps] at h ⊢
    have h2 := Fwd.sepMore hp hs r l'
    cases h3 : R.sepMore p sep r l' <;> simp only [h3] at h2 ⊢ <;> omega
  | back l' => simp only [hps] at h ⊢; omega
  | cut e l' => simp only [hps] at h ⊢; omega
  | crash => trivial

protected theorem Fwd.resume {p : R α} (o : Recovery) (site : Site) (hp : Fwd p) : Fwd (R.resume o site p) := by
  intro s l
  unfold R.resume
  have h := hp s l
  cases hps : p s l with
  | ok a r l' => simp only [hps] at h ⊢; exact h
  | back l' => simp only [hps] at h ⊢; omega
  | cut e l' =>
    simp only [hps] at h ⊢
    cases ho : o.resume site s with
    | none => exact h
    | some r =>
      obtain ⟨t, ht⟩ := o.forward _ _ _ ho
      have : r.length ≤ s.length := by rw [ht]; simp
      simp only [List.length_append]; omega
  | crash => trivial

protected theorem Fwd.resumeWith {p : R α} {q : P Unit} (hp : Fwd p) (hq : Sfx q) : Fwd (R.resumeWith p q) := by
  intro s l
  unfold R.resumeWith
  have h := hp s l
  cases hps : p s l with
  | ok a r l' => simp only [hps] at h ⊢; exact h
  | back l' => simp only [hps] at h ⊢; omega
  | cut e l' =>
    simp only [hps] at h ⊢
    cases ho : q s with
    | ok u r =>
      have := hq.le ho
      simp only [List.length_append]; omega
    | back => exact h
    | cut => exact h
    | crash => trivial
  | crash => trivial

protected theorem Fwd.mapCut {p : R α} (f : Str → Option Region → Option Region) (hp : Fwd p) : Fwd (R.mapCut f p) := by
  intro s l
  unfold R.mapCut
  have h := hp s l
  cases hps : p s l <;> simp only [hps] at h ⊢ <;> exact h

/-! ### Consuming -/

protected theorem Fwd.le {q : R α} (h : Fwd q) {s r : Str} {l l' : List Region} {a : α} (e : q s l = .ok a r l') :
    r.length ≤ s.length := by
  have := h s l
  simp only [e] at this
  exact this.1

protected theorem Eats.lift {p : P α} (hp : Strict p) : Eats (R.lift p) := by
  intro s l a r l' h
  unfold R.lift at h
  cases hs : p s <;> simp only [hs] at h <;> cases h
  exact hp.lt hs

protected theorem Eats.bind_left {q : R α} {g : α → R β} (hq : Eats q) (hg : ∀ a, Fwd (g a)) :
    Eats (q >>= g) := by
  intro s l b r l' h
  rw [R.bind_def] at h
  cases hs : q s l with
  | ok a r1 l1 =>
    simp only [hs] at h
    have := hq _ _ _ _ _ hs
    have := (hg a).le h
    omega
  | back l1 => simp only [hs] at h; cases h
  | cut e l1 => simp only [hs] at h; cases h
  | crash => simp only [hs] at h; cases h

protected theorem Eats.alt {p q : R α} (hp : Eats p) (hq : Eats q) : Eats (R.alt p q) := by
  intro s l a r l' h
  unfold R.alt at h
  cases hs : p s l with
  | back l1 => simp only [hs] at h; exact hq _ _ _ _ _ h
  | ok b r1 l1 => simp only [hs] at h; cases h; exact hp _ _ _ _ _ hs
  | cut e l1 => simp only [hs] at h; cases h
  | crash => simp only [hs] at h; cases h

/-! ### No panics -/

protected theorem Safe.mono {q : R α} {n m : Nat} (h : Safe m q) (hnm : n ≤ m) : Safe n q :=
  fun s l hs => h s l (by omega)

protected theorem Safe.pure (n : Nat) (a : α) : Safe n (Pure.pure a : R α) := by
  intro s l _ h; rw [R.pure_def] at h; cases h
protected theorem Safe.here (n : Nat) : Safe n R.here := by intro s l _ h; cases h
protected theorem Safe.failP (n : Nat) : Safe n (R.failP : R α) := by intro s l _ h; cases h

protected theorem Safe.lift {p : P α} {n : Nat} (hp : OkTo n p) : Safe n (R.lift p) := by
  intro s l hl h
  unfold R.lift at h
  cases hs : p s <;> simp only [hs] at h <;> cases h
  exact hp s hl hs

protected theorem Safe.bind {q : R α} {g : α → R β} {n : Nat} (hq : Safe n q) (hf : Fwd q)
    (hg : ∀ a, Safe n (g a)) : Safe n (q >>= g) := by
  intro s l hl h
  rw [R.bind_def] at h
  cases hs : q s l with
  | ok a r l' =>
    simp only [hs] at h
    have := hf.le hs
    exact hg a r l' (by omega) h
  | back l' => simp only [hs] at h; cases h
  | cut e l' => simp only [hs] at h; cases h
  | crash => exact hq s l hl hs

protected theorem Safe.bind_eats {q : R α} {g : α → R β} {n : Nat} (hq : Safe (n + 1) q) (hf : Eats q)
    (hg : ∀ a, Safe n (g a)) : Safe (n + 1) (q >>= g) := by
  intro s l hl h
  rw [R.bind_def] at h
  cases hs : q s l with
  | ok a r l' =>
    simp only [hs] at h
    have := hf _ _ _ _ _ hs
    exact hg a r l' (by omega) h
  | back l' => simp only [hs] at h; cases h
  | cut e l' => simp only [hs] at h; cases h
  | crash => exact hq s l hl hs

protected theorem Safe.alt {p q : R α} {n : Nat} (hp : Safe n p) (hq : Safe n q) : Safe n (R.alt p q) := by
  intro s l hl h
  unfold R.alt at h
  cases hs : p s l with
  | back l' => simp only [hs] at h; exact hq s l' hl h
  | ok a r l' => simp only [hs] at h; cases h
  | cut e l' => simp only [hs] at h; cases h
  | crash => exact hp s l hl hs

protected theorem Safe.opt {p : R α} {n : Nat} (hp : Safe n p) : Safe n (R.opt p) := by
  intro s l hl h
  unfold R.opt at h
  cases hs : p s l <;> simp only [hs] at h <;> cases h
  exact hp s l hl hs

protected theorem Safe.cutErr {p : R α} {n : Nat} (hp : Safe n p) : Safe n (R.cutErr p) := by
  intro s l hl h
  unfold R.cutErr at h
  cases hs : p s l <;> simp only [hs] at h <;> cases h
  exact hp s l hl hs

protected theorem Safe.void {p : R α} {n : Nat} (hp : Safe n p) (hf : Fwd p) : Safe n (R.void p) :=
  hp.bind hf fun _ => .pure _ _
protected theorem Safe.takeP {p : R α} {n : Nat} (hp : Safe n p) (hf : Fwd p) : Safe n (R.takeP p) :=
  (Safe.here n).bind .here fun _ => hp.bind hf fun _ => (Safe.here n).bind .here fun _ => .pure _ _

protected theorem Safe.repFuel {p : R α} {n : Nat} (hp : Safe n p) (he : Eats p) (k : Nat) :
    ∀ s l, s.length < n → s.length < k → R.repFuel p k s l ≠ .crash := by
  induction k with
  | zero => intro s l _ h; omega
  | succ k ih =>
    intro s l hl hk h
    unfold R.repFuel at h
    cases hs : p s l with
    | ok a r l' =>
      have hlt := he _ _ _ _ _ hs
      simp only [hs, hlt, if_true] at h
      cases h2 : R.repFuel p k r l' <;> simp only [h2] at h <;> cases h
      exact ih r l' (by omega) (by omega) h2
    | back l' => simp only [hs] at h; cases h
    | cut e l' => simp only [hs] at h; cases h
    | crash => exact hp s l hl hs

protected theorem Safe.rep0 {p : R α} {n : Nat} (hp : Safe n p) (he : Eats p) : Safe n (R.rep0 p) :=
  fun s l hl => Safe.repFuel hp he _ s l hl (by omega)

protected theorem Safe.sepFuel {p : R α} {sep : R β} {n : Nat} (hp : Safe n p) (hf : Fwd p) (hs : Safe n sep)
    (he : Eats sep) (k : Nat) :
    ∀ s l, s.length < n → s.length < k → R.sepFuel p sep k s l ≠ .crash := by
  induction k with
  | zero => intro s l _ h; omega
  | succ k ih =>
    intro s l hl hk h
    unfold R.sepFuel at h
    cases hss : sep s l with
    | ok b r l' =>
      have hlt := he _ _ _ _ _ hss
      simp only [hss, hlt, if_true] at h
      cases h2 : p r l' with
      | ok a r' l'' =>
        simp only [h2] at h
        have := hf.le h2
        cases h3 : R.sepFuel p sep k r' l'' <;> simp only [h3] at h <;> cases h
        exact ih r' l'' (by omega) (by omega) h3
      | back l'' => simp only [h2] at h; cases h
      | cut e l'' => simp only [h2] at h; cases h
      | crash => exact hp r l' (by omega) h2
    | back l' => simp only [hss] at h; cases h
    | cut e l' => simp only [hss] at h; cases h
    | crash => exact hs s l hl hss

protected theorem Safe.sepMore {p : R α} {sep : R β} {n : Nat} (hp : Safe n p) (hf : Fwd p) (hs : Safe n sep)
    (he : Eats sep) : Safe n (R.sepMore p sep) :=
  fun s l hl => Safe.sepFuel hp hf hs he _ s l hl (by omega)

protected theorem Safe.sep1 {p : R α} {sep : R β} {n : Nat} (hp : Safe n p) (hf : Fwd p) (hs : Safe n sep)
    (hfs : Fwd sep) (he : Eats sep) : Safe n (R.sep1 p sep) :=
  hp.bind hf fun _ => (Safe.sepMore hp hf hs he).bind (.sepMore hf hfs) fun _ => .pure _ _

protected theorem Safe.sep0 {p : R α} {sep : R β} {n : Nat} (hp : Safe n p) (hf : Fwd p) (hs : Safe n sep)
    (he : Eats sep) : Safe n (R.sep0 p sep) := by
  intro s l hl h
  unfold R.sep0 at h
  cases h2 : p s l with
  | ok a r l' =>
    simp only [h2] at h
    have := hf.le h2
    cases h3 : R.sepMore p sep r l' <;> simp only [h3] at h <;> cases h
    exact Safe.sepMore hp hf hs he r l' (by omega) h3
  | back l' => simp only [h2] at h; cases h
  | cut e l' => simp only [h2] at h; cases h
  | crash => exact hp s l hl h2

protected theorem Safe.resume {p : R α} {n : Nat} (o : Recovery) (site : Site) (hp : Safe n p) :
    Safe n (R.resume o site p) := by
  intro s l hl h
  unfold R.resume at h
  cases h2 : p s l with
  | ok a r l' => simp only [h2] at h; cases h
  | back l' => simp only [h2] at h; cases h
  | cut e l' =>
    simp only [h2] at h
    cases ho : o.resume site s <;> simp only [ho] at h <;> cases h
  | crash => exact hp s l hl h2

protected theorem Safe.resumeWith {p : R α} {q : P Unit} {n : Nat} (hp : Safe n p) (hq : OkTo n q) :
    Safe n (R.resumeWith p q) := by
  intro s l hl h
  unfold R.resumeWith at h
  cases h2 : p s l with
  | ok a r l' => simp only [h2] at h; cases h
  | back l' => simp only [h2] at h; cases h
  | cut e l' =>
    simp only [h2] at h
    cases ho : q s <;> simp only [ho] at h <;> cases h
    exact hq s hl ho
  | crash => exact hp s l hl h2

protected theorem Safe.mapCut {p : R α} {n : Nat} (f : Str → Option Region → Option Region) (hp : Safe n p) :
    Safe n (R.mapCut f p) := by
  intro s l hl h
  unfold R.mapCut at h
  cases h2 : p s l with
  | crash => exact hp s l hl h2
  | _ => simp only [h2] at h; cases h

/-! ### Following -/

protected theorem Sim.pure {f : α → β} {a : α} {b : β} (h : f a = b) :
    Sim f (Pure.pure a : P α) (Pure.pure b : R β) := by
  intro s l
  rw [pure_eq]
  simp only [R.pure_def, h]

protected theorem Sim.here : Sim id here R.here := fun _ _ => rfl
protected theorem Sim.failP {f : α → β} : Sim f (failP : P α) R.failP := fun _ _ => rfl

protected theorem Sim.lift (p : P α) : Sim id p (R.lift p) := by
  intro s l
  unfold R.lift
  cases p s <;> simp [Bad]

/-- What follows an error. -/
theorem Bad.bind {q : R α} {g : α → R β} (hg : ∀ a, Fwd (g a)) {s : Str} {l : List Region} (h : Bad l (q s l)) :
    Bad l ((q >>= g) s l) := by
  rw [R.bind_def]
  cases hs : q s l with
  | ok a r l' =>
    simp only [hs, Bad] at h ⊢
    have h2 := hg a r l'
    cases h3 : g a r l' <;> simp only [h3, Bad] at h2 ⊢ <;> omega
  | back l' => simpa only [hs, Bad] using h
  | cut e l' => simpa only [hs, Bad] using h
  | crash => trivial

protected theorem Sim.bind {f : α → β} {e : γ → δ} {p : P α} {q : R β} {k : α → P γ} {g : β → R δ}
    (h : Sim f p q) (hg : ∀ b, Fwd (g b)) (hk : ∀ a, Sim e (k a) (g (f a))) :
    Sim e (p >>= k) (q >>= g) := by
  intro s l
  have h1 := h s l
  cases hs : p s with
  | ok a r =>
    simp only [hs] at h1
    rw [bind_eq hs, R.bind_def, h1]
    exact hk a r l
  | back => simp only [hs] at h1; rw [bind_back hs, R.bind_def, h1]
  | cut => simp only [hs] at h1; rw [bind_cut hs]; exact h1.bind hg
  | crash => rw [bind_crash hs]; trivial

protected theorem Sim.alt {f : α → β} {p p' : P α} {q q' : R β} (h : Sim f p q) (h' : Sim f p' q')
    (hf : Fwd q') : Sim f (p <+> p') (R.alt q q') := by
  intro s l
  have h1 := h s l
  unfold R.alt
  cases hs : p s with
  | ok a r => simp only [hs] at h1; rw [alt_left hs, h1]
  | back => simp only [hs] at h1; rw [alt_right hs, h1]; exact h' s l
  | cut =>
    simp only [hs] at h1
    rw [alt_cut hs]
    cases h2 : q s l with
    | back l' =>
      simp only [h2, Bad] at h1 ⊢
      have h3 := hf s l'
      cases h4 : q' s l' <;> simp only [h4] at h3 ⊢ <;> omega
    | ok a r l' => simpa only [h2] using h1
    | cut e l' => simpa only [h2] using h1
    | crash => trivial
  | crash =>
    rw [show (p <+> p') s = .crash by unfold P.alt; rw [hs]]
    trivial

protected theorem Sim.opt {f : α → β} {p : P α} {q : R β} (h : Sim f p q) :
    Sim (Option.map f) (opt p) (R.opt q) := by
  intro s l
  have h1 := h s l
  unfold Kdl.opt R.opt
  cases hs : p s with
  | ok a r => simp only [hs] at h1; simp only [h1, Option.map]
  | back => simp only [hs] at h1; simp only [h1, Option.map]
  | cut =>
    simp only [hs] at h1 ⊢
    cases h2 : q s l <;> simp only [h2, Bad] at h1 ⊢ <;> omega
  | crash => trivial

protected theorem Sim.cutErr {f : α → β} {p : P α} {q : R β} (h : Sim f p q) :
    Sim f (cutErr p) (R.cutErr q) := by
  intro s l
  have h1 := h s l
  unfold Kdl.cutErr R.cutErr
  cases hs : p s with
  | ok a r => simp only [hs] at h1; simp only [h1]
  | back => simp only [hs] at h1; simp only [h1, Bad]; omega
  | cut =>
    simp only [hs] at h1 ⊢
    cases h2 : q s l <;> simp only [h2, Bad] at h1 ⊢ <;> omega
  | crash => trivial

protected theorem Sim.void {f : α → β} {p : P α} {q : R β} (h : Sim f p q) :
    Sim id (void p) (R.void q) :=
  h.bind (fun _ => .pure _) fun _ => .pure rfl

protected theorem Sim.takeP {f : α → β} {p : P α} {q : R β} (h : Sim f p q) (hf : Fwd q) :
    Sim id (takeP p) (R.takeP q) :=
  Sim.here.bind (fun _ => hf.bind fun _ => Fwd.here.bind fun _ => .pure _) fun _ =>
    h.bind (fun _ => Fwd.here.bind fun _ => .pure _) fun _ =>
      Sim.here.bind (fun _ => .pure _) fun _ => .pure rfl

protected theorem Sim.repFuel {f : α → β} {p : P α} {q : R β} (h : Sim f p q) (hf : Fwd q) (n : Nat) :
    Sim (List.map f) (repFuel p n) (R.repFuel q n) := by
  induction n with
  | zero => intro s l; simp [Kdl.repFuel]
  | succ n ih =>
    intro s l
    have h1 := h s l
    unfold Kdl.repFuel R.repFuel
    cases hs : p s with
    | ok a r =>
      simp only [hs] at h1
      simp only [h1]
      by_cases hlt : r.length < s.length
      · simp only [hlt, if_true]
        have h2 := ih r l
        cases h3 : Kdl.repFuel p n r with
        | ok as r' => simp only [h3] at h2; simp only [h2, List.map]
        | back => simp only [h3] at h2; simp only [h2]
        | cut =>
          simp only [h3] at h2 ⊢
          cases h4 : R.repFuel q n r l <;> simp only [h4, Bad] at h2 ⊢ <;> omega
        | crash => trivial
      · simp only [hlt, if_false]
    | back => simp only [hs] at h1; simp only [h1, List.map]
    | cut =>
      simp only [hs] at h1 ⊢
      cases h2 : q s l with
      | ok a r l' =>
        simp only [h2, Bad] at h1 ⊢
        by_cases hlt : r.length < s.length
        · simp only [hlt, if_true]
          have h3 := Fwd.repFuel hf n r l'
          cases h4 : R.repFuel q n r l' <;> simp only [h4] at h3 ⊢ <;> omega
        · simp only [hlt, if_false]
      | back l' => simpa only [h2, Bad] using h1
      | cut e l' => simpa only [h2, Bad] using h1
      | crash => trivial
    | crash => trivial

protected theorem Sim.rep0 {f : α → β} {p : P α} {q : R β} (h : Sim f p q) (hf : Fwd q) :
    Sim (List.map f) (rep0 p) (R.rep0 q) := fun s l => Sim.repFuel h hf _ s l

protected theorem Sim.sepFuel {f : α → β} {e : γ → δ} {p : P α} {q : R β} {sp : P γ} {sq : R δ} (h : Sim f p q)
    (hf : Fwd q) (hs : Sim e sp sq) (hfs : Fwd sq) (n : Nat) :
    Sim (List.map f) (sepFuel p sp n) (R.sepFuel q sq n) := by
  induction n with
  | zero => intro s l; simp [Kdl.sepFuel]
  | succ n ih =>
    intro s l
    have h1 := hs s l
    unfold Kdl.sepFuel R.sepFuel
    cases hss : sp s with
    | ok c r =>
      simp only [hss] at h1
      simp only [h1]
      by_cases hlt : r.length < s.length
      · simp only [hlt, if_true]
        have h2 := h r l
        cases h3 : p r with
        | ok a r' =>
          simp only [h3] at h2
          simp only [h2]
          have h4 := ih r' l
          cases h5 : Kdl.sepFuel p sp n r' with
          | ok as r'' => simp only [h5] at h4; simp only [h4, List.map]
          | back => simp only [h5] at h4; simp only [h4]
          | cut =>
            simp only [h5] at h4 ⊢
            cases h6 : R.sepFuel q sq n r' l <;> simp only [h6, Bad] at h4 ⊢ <;> omega
          | crash => trivial
        | back => simp only [h3] at h2; simp only [h2, List.map]
        | cut =>
          simp only [h3] at h2 ⊢
          cases h4 : q r l with
          | ok a r' l' =>
            simp only [h4, Bad] at h2 ⊢
            have h5 := Fwd.sepFuel hf hfs n r' l'
            cases h6 : R.sepFuel q sq n r' l' <;> simp only [h6] at h5 ⊢ <;> omega
          | back l' => simpa only [h4, Bad] using h2
          | cut e l' => simpa only [h4, Bad] using h2
          | crash => trivial
        | crash => trivial
      · simp only [hlt, if_false]
    | back => simp only [hss] at h1; simp only [h1, List.map]
    | cut =>
      simp only [hss] at h1 ⊢
      cases h2 : sq s l with
      | ok a r l' =>
        simp only [h2, Bad] at h1 ⊢
        by_cases hlt : r.length < s.length
        · simp only [hlt, if_true]
          have h3 := hf r l'
          cases h4 : q r l' with
          | ok a r' l'' =>
            simp only [h4] at h3 ⊢
            have h5 := Fwd.sepFuel hf hfs n r' l''
            cases h6 : R.sepFuel q sq n r' l'' <;> simp only [h6] at h5 ⊢ <;> omega
          | back l'' => simp only [h4] at h3 ⊢; omega
          | cut e l'' => simp only [h4] at h3 ⊢; omega
          | crash => trivial
        · simp only [hlt, if_false]
      | back l' => simpa only [h2, Bad] using h1
      | cut e l' => simpa only [h2, Bad] using h1
      | crash => trivial
    | crash => trivial

protected theorem Sim.sepMore {f : α → β} {e : γ → δ} {p : P α} {q : R β} {sp : P γ} {sq : R δ} (h : Sim f p q)
    (hf : Fwd q) (hs : Sim e sp sq) (hfs : Fwd sq) :
    Sim (List.map f) (sepMore p sp) (R.sepMore q sq) := fun s l => Sim.sepFuel h hf hs hfs _ s l

protected theorem Sim.sep1 {f : α → β} {e : γ → δ} {p : P α} {q : R β} {sp : P γ} {sq : R δ} (h : Sim f p q)
    (hf : Fwd q) (hs : Sim e sp sq) (hfs : Fwd sq) :
    Sim (List.map f) (sep1 p sp) (R.sep1 q sq) :=
  h.bind (fun _ => (Fwd.sepMore hf hfs).bind fun _ => .pure _) fun _ =>
    (Sim.sepMore h hf hs hfs).bind (fun _ => .pure _) fun _ => .pure rfl

protected theorem Sim.sep0 {f : α → β} {e : γ → δ} {p : P α} {q : R β} {sp : P γ} {sq : R δ} (h : Sim f p q)
    (hf : Fwd q) (hs : Sim e sp sq) (hfs : Fwd sq) :
    Sim (List.map f) (sep0 p sp) (R.sep0 q sq) := by
  intro s l
  have h1 := h s l
  unfold Kdl.sep0 R.sep0
  cases hps : p s with
  | ok a r =>
    simp only [hps] at h1
    simp only [h1]
    have h2 := Sim.sepMore h hf hs hfs r l
    cases h3 : Kdl.sepMore p sp r with
    | ok as r' => simp only [h3] at h2; simp only [h2, List.map]
    | back => simp only [h3] at h2; simp only [h2]
    | cut =>
      simp only [h3] at h2 ⊢
      cases h4 : R.sepMore q sq r l <;> simp only [h4, Bad] at h2 ⊢ <;> omega
    | crash => trivial
  | back => simp only [hps] at h1; simp only [h1, List.map]
  | cut =>
    simp only [hps] at h1 ⊢
    cases h2 : q s l with
    | ok a r l' =>
      simp only [h2, Bad] at h1 ⊢
      have h3 := Fwd.sepMore hf hfs r l'
      cases h4 : R.sepMore q sq r l' <;> simp only [h4] at h3 ⊢ <;> omega
    | back l' => simpa only [h2, Bad] using h1
    | cut e l' => simpa only [h2, Bad] using h1
    | crash => trivial
  | crash => trivial

protected theorem Sim.resume {f : α → β} {p : P α} {q : R β} (o : Recovery) (site : Site) (h : Sim f p q) :
    Sim (fun a => some (f a)) p (R.resume o site q) := by
  intro s l
  have h1 := h s l
  unfold R.resume
  cases hs : p s with
  | ok a r => simp only [hs] at h1; simp only [h1]
  | back => simp only [hs] at h1; simp only [h1]
  | cut =>
    simp only [hs] at h1 ⊢
    cases h2 : q s l with
    | ok a r l' => simpa only [h2, Bad] using h1
    | back l' => simpa only [h2, Bad] using h1
    | cut e l' =>
      simp only [h2, Bad] at h1 ⊢
      cases o.resume site s with
      | none => exact h1
      | some r => simp only [List.length_append, List.length_singleton]; omega
    | crash => trivial
  | crash => trivial

protected theorem Sim.resumeWith {f : α → β} {p : P α} {q : R β} (r : P Unit) (h : Sim f p q) :
    Sim (fun a => some (f a)) p (R.resumeWith q r) := by
  intro s l
  have h1 := h s l
  unfold R.resumeWith
  cases hs : p s with
  | ok a r => simp only [hs] at h1; simp only [h1]
  | back => simp only [hs] at h1; simp only [h1]
  | cut =>
    simp only [hs] at h1 ⊢
    cases h2 : q s l with
    | ok a r l' => simpa only [h2, Bad] using h1
    | back l' => simpa only [h2, Bad] using h1
    | cut e l' =>
      simp only [h2, Bad] at h1 ⊢
      cases r s <;> simp only [List.length_append, List.length_singleton] <;> omega
    | crash => trivial
  | crash => trivial

protected theorem Sim.mapCut {f : α → β} {p : P α} {q : R β} (g : Str → Option Region → Option Region) (h : Sim f p q) :
    Sim f p (R.mapCut g q) := by
  intro s l
  have h1 := h s l
  unfold R.mapCut
  cases hs : p s with
  | ok a r => simp only [hs] at h1; simp only [h1]
  | back => simp only [hs] at h1; simp only [h1]
  | cut =>
    simp only [hs] at h1 ⊢
    cases h2 : q s l <;> simpa only [h2, Bad] using h1
  | crash => trivial

/-- Looking at the input. -/
protected theorem Sim.look {f : α → β} {p : P α} {g : Str → R β} (h : ∀ x, Sim f p (g x)) : Sim f p (R.here >>= g) :=
  fun s l => h s s l

end Kdl
