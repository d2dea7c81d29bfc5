import Verif.Model.Diag
import Verif.Lemmas.DiagLex
import Verif.Lemmas.Recover
/-
The parser with diagnostics is the parser with recovery of `Model/Recover.lean`, for one particular way of
recovering: the places at which parsers fail and at which parsing goes on are those of the parser with
diagnostics itself.
-/

namespace Kdl

variable {α β : Type}

/-- Drops the messages and the position of a failure. -/
def DRes.erase : DRes α → RRes α
  | .ok a r l => .ok a r (l.map Prod.snd)
  | .back _ _ l => .back (l.map Prod.snd)
  | .cut _ g _ l => .cut g (l.map Prod.snd)
  | .crash => .crash

/-- The parser stopped at the end of `s`, whether it failed or not. -/
def DRes.Inside (s : Str) : DRes α → Prop
  | .ok _ r _ => r <:+ s
  | .back _ r _ => r <:+ s
  | .cut _ _ r _ => r <:+ s
  | .crash => True

/-- The same with more errors recorded before. -/
def DRes.after (l : List Rec) : DRes α → DRes α
  | .ok a r l' => .ok a r (l ++ l')
  | .back e r l' => .back e r (l ++ l')
  | .cut e g r l' => .cut e g r (l ++ l')
  | .crash => .crash

theorem DRes.after_after (x : DRes α) (l l' : List Rec) : (x.after l').after l = x.after (l ++ l') := by
  cases x <;> simp [DRes.after]

theorem DRes.Inside.mono {x : DRes α} {r s : Str} (h : x.Inside r) (hr : r <:+ s) : x.Inside s := by
  cases x <;> simp only [DRes.Inside] at * <;> first | exact h.trans hr | trivial

theorem DRes.Inside.after {x : DRes α} {s : Str} {l : List Rec} (h : x.Inside s) : (x.after l).Inside s := by
  cases x <;> exact h

/-- `p` does what `q` does, with diagnostics; it stops inside its input, and what it does does not depend on
the errors recorded before. -/
structure DTr (p : D α) (q : R α) : Prop where
  erase : ∀ s l, (p s l).erase = q s (l.map Prod.snd)
  inside : ∀ s, (p s []).Inside s
  after : ∀ s l, p s l = (p s []).after l

/-- Where `p` stops on the input `s` if it fails. -/
def stopD (p : D α) (s : Str) : Str :=
  match p s [] with
  | .back _ r _ => r
  | .cut _ _ r _ => r
  | _ => s

/-- Where parsing resumes if `p` fails on the input `s` and `q` recovers. -/
def resumeD (p : D α) (q : P Unit) (s : Str) : Option Str :=
  match p s [] with
  | .cut _ _ r _ =>
    match q r with
    | .ok _ r' => some r'
    | _ => none
  | _ => none

namespace DTr

theorem inside' {p : D α} {q : R α} (h : DTr p q) (s : Str) (l : List Rec) : (p s l).Inside s := by
  rw [h.after]; exact (h.inside s).after

theorem pure (a : α) : DTr (Pure.pure a) (Pure.pure a) where
  erase _ _ := rfl
  inside s := List.suffix_refl s
  after s l := by change DRes.ok a s l = .ok a s (l ++ []); simp

theorem here : DTr D.here R.here where
  erase _ _ := rfl
  inside s := List.suffix_refl s
  after s l := by change DRes.ok s s l = .ok s s (l ++ []); simp

theorem failP : DTr (D.failP : D α) R.failP where
  erase _ _ := rfl
  inside s := List.suffix_refl s
  after s l := by change DRes.back {} s l = .back {} s (l ++ []); simp

theorem crash : DTr (fun _ _ => .crash : D α) (fun _ _ => .crash) where
  erase _ _ := rfl
  inside _ := trivial
  after _ _ := rfl

theorem lift {p : L α} {q : P α} (h : LTr p q) : DTr (D.lift p) (R.lift q) where
  erase s l := by
    unfold D.lift R.lift
    rw [← (h s).1]
    cases p s <;> rfl
  inside s := by
    have := (h s).2
    unfold D.lift
    cases hp : p s <;> rw [hp] at this <;> exact this
  after s l := by
    unfold D.lift
    cases p s <;> simp [DRes.after]

theorem bind {p : D α} {q : R α} {f : α → D β} {g : α → R β} (h : DTr p q) (hf : ∀ a, DTr (f a) (g a)) :
    DTr (p >>= f) (q >>= g) where
  erase s l := by
    change (D.bind p f s l).erase = R.bind q g s _
    unfold D.bind R.bind
    rw [← h.erase]
    cases p s l with
    | ok a r l => exact (hf a).erase r l
    | _ => rfl
  inside s := by
    change (D.bind p f s []).Inside s
    have := h.inside s
    unfold D.bind
    cases hp : p s [] with
    | ok a r l => rw [hp] at this; exact ((hf a).inside' r l).mono this
    | _ => rw [hp] at this; exact this
  after s l := by
    change D.bind p f s l = (D.bind p f s []).after l
    unfold D.bind
    rw [h.after s l]
    cases p s [] with
    | ok a r l' =>
      change f a r (l ++ l') = (f a r l').after l
      rw [(hf a).after r (l ++ l'), (hf a).after r l', DRes.after_after]
    | _ => rfl

theorem alt {p p' : D α} {q q' : R α} (h : DTr p q) (h' : DTr p' q') : DTr (.alt p p') (.alt q q') where
  erase s l := by
    unfold D.alt R.alt
    rw [← h.erase]
    cases p s l with
    | back e r l => exact h'.erase s l
    | _ => rfl
  inside s := by
    have := h.inside s
    unfold D.alt
    cases hp : p s [] with
    | back e r l => exact h'.inside' s l
    | _ => rw [hp] at this; exact this
  after s l := by
    unfold D.alt
    rw [h.after s l]
    cases p s [] with
    | back e r l' =>
      change p' s (l ++ l') = (p' s l').after l
      rw [h'.after s (l ++ l'), h'.after s l', DRes.after_after]
    | _ => rfl

theorem opt {p : D α} {q : R α} (h : DTr p q) : DTr (.opt p) (.opt q) where
  erase s l := by
    unfold D.opt R.opt
    rw [← h.erase]
    cases p s l <;> rfl
  inside s := by
    have := h.inside s
    unfold D.opt
    cases hp : p s [] with
    | back e r l => exact List.suffix_refl s
    | _ => rw [hp] at this; exact this
  after s l := by
    unfold D.opt
    rw [h.after s l]
    cases p s [] <;> rfl

theorem cutErr {p : D α} {q : R α} (h : DTr p q) : DTr (.cutErr p) (.cutErr q) where
  erase s l := by
    unfold D.cutErr R.cutErr
    rw [← h.erase]
    cases p s l <;> rfl
  inside s := by
    have := h.inside s
    unfold D.cutErr
    cases hp : p s [] <;> rw [hp] at this <;> exact this
  after s l := by
    unfold D.cutErr
    rw [h.after s l]
    cases p s [] <;> rfl

theorem ctx {c : PErr} {p : D α} {q : R α} (h : DTr p q) : DTr (.ctx c p) q where
  erase s l := by
    unfold D.ctx
    rw [← h.erase]
    cases p s l <;> rfl
  inside s := by
    have := h.inside s
    unfold D.ctx
    cases hp : p s [] <;> rw [hp] at this <;> exact this
  after s l := by
    unfold D.ctx
    rw [h.after s l]
    cases p s [] <;> rfl

theorem void {p : D α} {q : R α} (h : DTr p q) : DTr (.void p) (.void q) := .bind h fun _ => .pure _

theorem takeP {p : D α} {q : R α} (h : DTr p q) : DTr (.takeP p) (.takeP q) :=
  .bind .here fun _ => .bind h fun _ => .bind .here fun _ => .pure _

theorem repFuel {p : D α} {q : R α} (h : DTr p q) (n : Nat) : DTr (D.repFuel p n) (R.repFuel q n) := by
  induction n with
  | zero => exact ⟨fun _ _ => rfl, fun _ => trivial, fun _ _ => rfl⟩
  | succ n ih =>
    refine ⟨fun s l => ?_, fun s => ?_, fun s l => ?_⟩
    · unfold D.repFuel R.repFuel
      rw [← h.erase]
      cases p s l with
      | ok a r l =>
        by_cases hl : r.length < s.length <;> simp only [DRes.erase, hl, if_true, if_false]
        rw [← ih.erase]
        cases D.repFuel p n r l <;> rfl
      | _ => rfl
    · have := h.inside s
      unfold D.repFuel
      cases hp : p s [] with
      | ok a r l =>
        rw [hp] at this
        by_cases hl : r.length < s.length <;> simp only [hl, if_true, if_false]
        · have h2 := (ih.inside' r l).mono this
          cases hp : D.repFuel p n r l <;> rw [hp] at h2 <;> exact h2
        · trivial
      | back e r l => exact List.suffix_refl s
      | _ => rw [hp] at this; exact this
    · unfold D.repFuel
      rw [h.after s l]
      cases p s [] with
      | ok a r l' =>
        by_cases hl : r.length < s.length <;> simp only [DRes.after, hl, if_true, if_false]
        rw [ih.after r (l ++ l'), ih.after r l', ← DRes.after_after]
        cases (D.repFuel p n r []).after l' <;> rfl
      | _ => rfl

theorem rep0 {p : D α} {q : R α} (h : DTr p q) : DTr (.rep0 p) (.rep0 q) where
  erase s l := (repFuel h _).erase s l
  inside s := (repFuel h _).inside s
  after s l := (repFuel h _).after s l

theorem sepFuel {p : D α} {q : R α} {e : D β} {f : R β} (h : DTr p q) (he : DTr e f) (n : Nat) :
    DTr (D.sepFuel p e n) (R.sepFuel q f n) := by
  induction n with
  | zero => exact ⟨fun _ _ => rfl, fun _ => trivial, fun _ _ => rfl⟩
  | succ n ih =>
    refine ⟨fun s l => ?_, fun s => ?_, fun s l => ?_⟩
    · unfold D.sepFuel R.sepFuel
      rw [← he.erase]
      cases e s l with
      | ok a r l =>
        by_cases hl : r.length < s.length <;> simp only [DRes.erase, hl, if_true, if_false]
        rw [← h.erase]
        cases p r l with
        | ok a r l =>
          simp only [DRes.erase]
          rw [← ih.erase]
          cases D.sepFuel p e n r l <;> rfl
        | _ => rfl
      | _ => rfl
    · have := he.inside s
      unfold D.sepFuel
      cases hp : e s [] with
      | ok a r l =>
        rw [hp] at this
        by_cases hl : r.length < s.length <;> simp only [hl, if_true, if_false]
        · have h1 := (h.inside' r l).mono this
          cases hp : p r l with
          | ok b r' l' =>
            rw [hp] at h1
            have h2 := (ih.inside' r' l').mono h1
            simp only
            cases hp : D.sepFuel p e n r' l' <;> rw [hp] at h2 <;> exact h2
          | back e r' l' => exact List.suffix_refl s
          | _ => rw [hp] at h1; exact h1
        · trivial
      | back e r l => exact List.suffix_refl s
      | _ => rw [hp] at this; exact this
    · unfold D.sepFuel
      rw [he.after s l]
      cases e s [] with
      | ok a r l' =>
        by_cases hl : r.length < s.length <;> simp only [DRes.after, hl, if_true, if_false]
        rw [h.after r (l ++ l'), h.after r l', ← DRes.after_after]
        cases (p r []).after l' with
        | ok b r' l2 =>
          simp only [DRes.after]
          rw [ih.after r' (l ++ l2), ih.after r' l2, ← DRes.after_after]
          cases (D.sepFuel p e n r' []).after l2 <;> rfl
        | _ => rfl
      | _ => rfl

theorem sepMore {p : D α} {q : R α} {e : D β} {f : R β} (h : DTr p q) (he : DTr e f) :
    DTr (.sepMore p e) (.sepMore q f) where
  erase s l := (sepFuel h he _).erase s l
  inside s := (sepFuel h he _).inside s
  after s l := (sepFuel h he _).after s l

theorem sep1 {p : D α} {q : R α} {e : D β} {f : R β} (h : DTr p q) (he : DTr e f) :
    DTr (.sep1 p e) (.sep1 q f) :=
  .bind h fun _ => .bind (.sepMore h he) fun _ => .pure _

theorem sep0 {p : D α} {q : R α} {e : D β} {f : R β} (h : DTr p q) (he : DTr e f) :
    DTr (.sep0 p e) (.sep0 q f) where
  erase s l := by
    unfold D.sep0 R.sep0
    rw [← h.erase]
    cases p s l with
    | ok a r l =>
      simp only [DRes.erase]
      rw [← (sepMore h he).erase]
      cases D.sepMore p e r l <;> rfl
    | _ => rfl
  inside s := by
    have := h.inside s
    unfold D.sep0
    cases hp : p s [] with
    | ok a r l =>
      rw [hp] at this
      have h2 := ((sepMore h he).inside' r l).mono this
      simp only
      cases hp : D.sepMore p e r l <;> rw [hp] at h2 <;> exact h2
    | back e r l => exact List.suffix_refl s
    | _ => rw [hp] at this; exact this
  after s l := by
    unfold D.sep0
    rw [h.after s l]
    cases p s [] with
    | ok a r l' =>
      simp only [DRes.after]
      rw [(sepMore h he).after r (l ++ l'), (sepMore h he).after r l', ← DRes.after_after]
      cases (D.sepMore p e r []).after l' <;> rfl
    | _ => rfl

/-- `resume_after_cut` follows the recovery that is read off from it. -/
theorem resume {o : Recovery} {site : Site} {p : D α} {q : R α} {x : P Unit} (h : DTr p q)
    (hr : ∀ s, o.resume site s = resumeD p x s) (hf : ∀ s, o.failed (some site) s = stopD p s)
    (hx : Sfx x) (hok : ∀ s, x s ≠ .crash) : DTr (.resume p x) (.resume o site q) where
  erase s l := by
    unfold D.resume R.resume
    rw [← h.erase, hr s, hf s, h.after s l]
    unfold resumeD stopD
    cases p s [] with
    | cut e g r l' =>
      simp only [DRes.after, DRes.erase]
      cases hq : x r with
      | ok a r' => simp [DRes.erase]
      | crash => exact absurd hq (hok r)
      | _ => rfl
    | _ => rfl
  inside s := by
    have := h.inside s
    unfold D.resume
    cases hp : p s [] with
    | cut e g r l =>
      rw [hp] at this
      simp only
      cases hq : x r with
      | ok a r' =>
        obtain ⟨t, ht⟩ := hx _ _ _ hq
        exact (List.IsSuffix.trans ⟨t, ht.symm⟩ this : r' <:+ s)
      | crash => trivial
      | _ => exact this
    | _ => rw [hp] at this; exact this
  after s l := by
    unfold D.resume
    rw [h.after s l]
    cases p s [] with
    | cut e g r l' =>
      simp only [DRes.after]
      cases x r <;> simp [DRes.after]
    | _ => rfl

/-- `resume_after_cut` for a parser that does not consume anything before it fails. -/
theorem resumeWith {p : D α} {q : R α} {x : P Unit} (h : DTr p q)
    (hs : ∀ s e g r l, p s [] = .cut e g r l → r = s) (hx : Sfx x) : DTr (.resume p x) (.resumeWith q x) where
  erase s l := by
    unfold D.resume R.resumeWith
    rw [← h.erase, h.after s l]
    cases hp : p s [] with
    | cut e g r l' =>
      simp only [DRes.after, DRes.erase, hs s e g r l' hp]
      cases x s <;> simp [DRes.erase]
    | _ => rfl
  inside s := by
    have := h.inside s
    unfold D.resume
    cases hp : p s [] with
    | cut e g r l =>
      rw [hp] at this
      simp only
      cases hq : x r with
      | ok a r' =>
        obtain ⟨t, ht⟩ := hx _ _ _ hq
        exact (List.IsSuffix.trans ⟨t, ht.symm⟩ this : r' <:+ s)
      | crash => trivial
      | _ => exact this
    | _ => rw [hp] at this; exact this
  after s l := by
    unfold D.resume
    rw [h.after s l]
    cases p s [] with
    | cut e g r l' =>
      simp only [DRes.after]
      cases x r <;> simp [DRes.after]
    | _ => rfl

theorem mapCut {p : D α} {q : R α} {f : Str → Str → Option Region → Option Region}
    {f' : Str → Option Region → Option Region} (h : DTr p q)
    (hf : ∀ s e g r l, p s [] = .cut e g r l → f s r g = f' s g) : DTr (.mapCut f p) (.mapCut f' q) where
  erase s l := by
    unfold D.mapCut R.mapCut
    rw [← h.erase, h.after s l]
    cases hp : p s [] with
    | cut e g r l' => simp only [DRes.after, DRes.erase, hf s e g r l' hp]
    | _ => rfl
  inside s := by
    have := h.inside s
    unfold D.mapCut
    cases hp : p s [] <;> rw [hp] at this <;> exact this
  after s l := by
    unfold D.mapCut
    rw [h.after s l]
    cases p s [] <;> rfl

end DTr

end Kdl
