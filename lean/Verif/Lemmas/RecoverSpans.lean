import Verif.Lemmas.RecoverGrammar
import Verif.Props.Spans
/-
The regions of recorded errors lie inside the input.
-/

namespace Kdl

variable {α β γ δ : Type}

/-- A region of the text `w`. -/
def Region.In (w : Str) (e : Region) : Prop := e.start <:+ w ∧ e.stop <:+ e.start

/-- All of them are regions of `w`. -/
def AllIn (w : Str) (l : List Region) : Prop := ∀ e ∈ l, e.In w

/-- Started within `v`, itself an end of `w`, the parser stays there and records regions of `w`. -/
def Within (w v : Str) (q : R α) : Prop := v <:+ w → ∀ s l, s <:+ v → AllIn w l →
  match q s l with
  | .ok _ r l' => r <:+ s ∧ AllIn w l'
  | .back l' => AllIn w l'
  | .cut e l' => (∀ x, e = some x → x.In w) ∧ AllIn w l'
  | .crash => True

variable {w v : Str}

theorem AllIn.snoc {l : List Region} {e : Region} (h : AllIn w l) (he : e.In w) : AllIn w (l ++ [e]) := by
  intro x hx
  rcases List.mem_append.mp hx with hx | hx
  · exact h x hx
  · rw [List.mem_singleton.mp hx]; exact he

protected theorem Within.ok {q : R α} (h : Within w v q) (hv : v <:+ w) {s r : Str} {l l' : List Region} {a : α} (hs : s <:+ v)
    (hl : AllIn w l) (e : q s l = .ok a r l') : r <:+ s ∧ AllIn w l' := by
  have := h hv s l hs hl
  simpa only [e] using this

protected theorem Within.pure (a : α) : Within w v (Pure.pure a : R α) :=
  fun _ s _ _ hl => ⟨List.suffix_refl s, hl⟩
protected theorem Within.here : Within w v R.here := fun _ s _ _ hl => ⟨List.suffix_refl s, hl⟩
protected theorem Within.failP : Within w v (R.failP : R α) := fun _ _ _ _ hl => hl

protected theorem Within.bind {q : R α} {g : α → R β} (hq : Within w v q) (hg : ∀ a, Within w v (g a)) :
    Within w v (q >>= g) := by
  intro hv s l hs hl
  rw [R.bind_def]
  have h := hq hv s l hs hl
  cases hqs : q s l with
  | ok a r l' =>
    simp only [hqs] at h ⊢
    have h2 := hg a hv r l' (h.1.trans hs) h.2
    cases h3 : g a r l' with
    | ok b r' l'' => simp only [h3] at h2 ⊢; exact ⟨h2.1.trans h.1, h2.2⟩
    | back l'' => simpa only [h3] using h2
    | cut e l'' => simpa only [h3] using h2
    | crash => trivial
  | back l' => simpa only [hqs] using h
  | cut e l' => simpa only [hqs] using h
  | crash => trivial

/-- Looking at the input. -/
protected theorem Within.look {g : Str → R β} (h : ∀ x, x <:+ v → Within w x (g x)) : Within w v (R.here >>= g) :=
  fun hv s l hs hl => h s hs (hs.trans hv) s l (List.suffix_refl s) hl

protected theorem Within.mono {q : R α} {u : Str} (h : Within w u q) (hu : u <:+ w) (hv : v <:+ u) : Within w v q :=
  fun _ s l hs hl => h hu s l (hs.trans hv) hl

protected theorem Within.lift {p : P α} (hp : Sfx p) : Within w v (R.lift p) := by
  intro hv s l hs hl
  unfold R.lift
  cases h : p s with
  | ok a r =>
    obtain ⟨t, ht⟩ := hp s a r h
    exact ⟨⟨t, ht.symm⟩, hl⟩
  | back => exact hl
  | cut => exact ⟨by simp, hl⟩
  | crash => trivial

protected theorem Within.alt {p q : R α} (hp : Within w v p) (hq : Within w v q) : Within w v (R.alt p q) := by
  intro hv s l hs hl
  unfold R.alt
  have h := hp hv s l hs hl
  cases hps : p s l with
  | back l' =>
    simp only [hps] at h ⊢
    exact hq hv s l' hs h
  | ok a r l' => simpa only [hps] using h
  | cut e l' => simpa only [hps] using h
  | crash => trivial

protected theorem Within.opt {p : R α} (hp : Within w v p) : Within w v (R.opt p) := by
  intro hv s l hs hl
  unfold R.opt
  have h := hp hv s l hs hl
  cases hps : p s l with
  | back l' => simp only [hps] at h ⊢; exact ⟨List.suffix_refl s, h⟩
  | ok a r l' => simpa only [hps] using h
  | cut e l' => simpa only [hps] using h
  | crash => trivial

protected theorem Within.cutErr {p : R α} (hp : Within w v p) : Within w v (R.cutErr p) := by
  intro hv s l hs hl
  unfold R.cutErr
  have h := hp hv s l hs hl
  cases hps : p s l with
  | back l' => simp only [hps] at h ⊢; exact ⟨by simp, h⟩
  | ok a r l' => simpa only [hps] using h
  | cut e l' => simpa only [hps] using h
  | crash => trivial

protected theorem Within.void {p : R α} (hp : Within w v p) : Within w v (R.void p) := hp.bind fun _ => .pure _
protected theorem Within.takeP {p : R α} (hp : Within w v p) : Within w v (R.takeP p) :=
  Within.here.bind fun _ => hp.bind fun _ => Within.here.bind fun _ => .pure _

protected theorem Within.repFuel {p : R α} (hp : Within w v p) (n : Nat) : Within w v (R.repFuel p n) := by
  induction n with
  | zero => intro _ _ _ _ _; trivial
  | succ n ih =>
    intro hv s l hs hl
    unfold R.repFuel
    have h := hp hv s l hs hl
    cases hps : p s l with
    | ok a r l' =>
      simp only [hps] at h ⊢
      by_cases hlt : r.length < s.length
      · simp only [hlt, if_true]
        have h2 := ih hv r l' (h.1.trans hs) h.2
        cases h3 : R.repFuel p n r l' with
        | ok as r' l'' => simp only [h3] at h2 ⊢; exact ⟨h2.1.trans h.1, h2.2⟩
        | back l'' => simpa only [h3] using h2
        | cut e l'' => simpa only [h3] using h2
        | crash => trivial
      · simp only [hlt, if_false]
    | back l' => simp only [hps] at h ⊢; exact ⟨List.suffix_refl s, h⟩
    | cut e l' => simpa only [hps] using h
    | crash => trivial

protected theorem Within.rep0 {p : R α} (hp : Within w v p) : Within w v (R.rep0 p) :=
  fun hv s l hs hl => Within.repFuel hp _ hv s l hs hl

protected theorem Within.sepFuel {p : R α} {sep : R β} (hp : Within w v p) (hsep : Within w v sep) (n : Nat) :
    Within w v (R.sepFuel p sep n) := by
  induction n with
  | zero => intro _ _ _ _ _; trivial
  | succ n ih =>
    intro hv s l hs hl
    unfold R.sepFuel
    have h := hsep hv s l hs hl
    cases hss : sep s l with
    | ok b r l' =>
      simp only [hss] at h ⊢
      by_cases hlt : r.length < s.length
      · simp only [hlt, if_true]
        have h2 := hp hv r l' (h.1.trans hs) h.2
        cases h3 : p r l' with
        | ok a r' l'' =>
          simp only [h3] at h2 ⊢
          have h4 := ih hv r' l'' ((h2.1.trans h.1).trans hs) h2.2
          cases h5 : R.sepFuel p sep n r' l'' with
          | ok as r3 l3 => simp only [h5] at h4 ⊢; exact ⟨(h4.1.trans h2.1).trans h.1, h4.2⟩
          | back l3 => simpa only [h5] using h4
          | cut e l3 => simpa only [h5] using h4
          | crash => trivial
        | back l'' => simp only [h3] at h2 ⊢; exact ⟨List.suffix_refl s, h2⟩
        | cut e l'' => simpa only [h3] using h2
        | crash => trivial
      · simp only [hlt, if_false]
    | back l' => simp only [hss] at h ⊢; exact ⟨List.suffix_refl s, h⟩
    | cut e l' => simpa only [hss] using h
    | crash => trivial

protected theorem Within.sepMore {p : R α} {sep : R β} (hp : Within w v p) (hs : Within w v sep) : Within w v (R.sepMore p sep) :=
  fun hv s l hs' hl => Within.sepFuel hp hs _ hv s l hs' hl

protected theorem Within.sep1 {p : R α} {sep : R β} (hp : Within w v p) (hs : Within w v sep) : Within w v (R.sep1 p sep) :=
  hp.bind fun _ => (Within.sepMore hp hs).bind fun _ => .pure _

protected theorem Within.sep0 {p : R α} {sep : R β} (hp : Within w v p) (hsep : Within w v sep) : Within w v (R.sep0 p sep) := by
  intro hv s l hs hl
  unfold R.sep0
  have h := hp hv s l hs hl
  cases hps : p s l with
  | ok a r l' =>
    simp only [hps] at h ⊢
    have h2 := Within.sepMore hp hsep hv r l' (h.1.trans hs) h.2
    cases h3 : R.sepMore p sep r l' with
    | ok as r' l'' => simp only [h3] at h2 ⊢; exact ⟨h2.1.trans h.1, h2.2⟩
    | back l'' => simpa only [h3] using h2
    | cut e l'' => simpa only [h3] using h2
    | crash => trivial
  | back l' => simp only [hps] at h ⊢; exact ⟨List.suffix_refl s, h⟩
  | cut e l' => simpa only [hps] using h
  | crash => trivial

theorem located_in {e : Option Region} {s r : Str} (he : ∀ x, e = some x → x.In w) (hs : s <:+ w) (hr : r <:+ s) :
    (located e s r).In w := by
  cases e with
  | none => exact ⟨hs, hr⟩
  | some x => exact he x rfl

theorem Recovery.failed_suffix (o : Recovery) (site : Option Site) (s : Str) : o.failed site s <:+ s := by
  obtain ⟨t, ht⟩ := o.forward_failed site s
  exact ⟨t, ht.symm⟩

protected theorem Within.resume {p : R α} (o : Recovery) (site : Site) (hp : Within w v p) : Within w v (R.resume o site p) := by
  intro hv s l hs hl
  unfold R.resume
  have h := hp hv s l hs hl
  cases hps : p s l with
  | ok a r l' => simpa only [hps] using h
  | back l' => simpa only [hps] using h
  | cut e l' =>
    simp only [hps] at h ⊢
    cases ho : o.resume site s with
    | none =>
      refine ⟨?_, h.2⟩
      rintro _ ⟨⟩
      exact located_in h.1 (hs.trans hv) (o.failed_suffix _ s)
    | some r =>
      obtain ⟨t, ht⟩ := o.forward _ _ _ ho
      have hr : r <:+ s := ⟨t, ht.symm⟩
      exact ⟨hr, h.2.snoc (located_in h.1 (hs.trans hv) hr)⟩
  | crash => trivial

protected theorem Within.resumeWith {p : R α} {q : P Unit} (hp : Within w v p) (hq : Sfx q) : Within w v (R.resumeWith p q) := by
  intro hv s l hs hl
  unfold R.resumeWith
  have h := hp hv s l hs hl
  cases hps : p s l with
  | ok a r l' => simpa only [hps] using h
  | back l' => simpa only [hps] using h
  | cut e l' =>
    simp only [hps] at h ⊢
    have hstay : ∀ x, some (located e s s) = some x → x.In w := by
      rintro _ ⟨⟩
      exact located_in h.1 (hs.trans hv) (List.suffix_refl s)
    cases ho : q s with
    | ok u r =>
      obtain ⟨t, ht⟩ := hq _ _ _ ho
      have hr : r <:+ s := ⟨t, ht.symm⟩
      exact ⟨hr, h.2.snoc (located_in h.1 (hs.trans hv) hr)⟩
    | back => exact ⟨hstay, h.2⟩
    | cut => exact ⟨hstay, h.2⟩
    | crash => trivial
  | crash => trivial

protected theorem Within.mapCut {p : R α} {f : Str → Option Region → Option Region} (hp : Within w v p)
    (hf : ∀ s e, s <:+ v → v <:+ w → (∀ x, e = some x → x.In w) → ∀ x, f s e = some x → x.In w) : Within w v (R.mapCut f p) := by
  intro hv s l hs hl
  unfold R.mapCut
  have h := hp hv s l hs hl
  cases hps : p s l with
  | cut e l' =>
    simp only [hps] at h ⊢
    exact ⟨hf s e hs hv h.1, h.2⟩
  | ok a r l' => simpa only [hps] using h
  | back l' => simpa only [hps] using h
  | crash => trivial

/-! ### The productions -/

/-- One step of the search for `Within` goals. -/
syntax "wstep" : tactic

macro_rules | `(tactic| wstep) => `(tactic| with_reducible first
  | assumption
  | intro _
  | exact Within.pure _ | exact Within.here | exact Within.failP
  | apply Within.bind | apply Within.lift | apply Within.alt | apply Within.opt | apply Within.cutErr | apply Within.void
  | apply Within.takeP | apply Within.rep0 | apply Within.sep1 | apply Within.sep0 | apply Within.resume | apply Within.resumeWith
  | pstep
  | split)

/-- Search for `Within` goals. -/
macro "wsolve" : tactic => `(tactic| repeat' wstep)

section
variable (o : Recovery)

protected theorem Within.stringR : Within w v (stringR o) := by
  unfold Kdl.stringR
  refine .alt ?_ (.alt (.resume _ _ (.mapCut (.lift ?_) ?_)) ?_)
  rotate_right 2
  · intro s e hs hv _ x hx
    obtain ⟨t, u, h1, h2⟩ := o.forward_raw s x hx
    exact ⟨List.IsSuffix.trans ⟨t, h1.symm⟩ (hs.trans hv), ⟨u, h2.symm⟩⟩
  all_goals wsolve
macro_rules | `(tactic| wstep) => `(tactic| with_reducible exact Within.stringR _)

protected theorem Within.identifierR (total : Nat) : Within w v (identifierR o total) := by
  unfold Kdl.identifierR; wsolve
macro_rules | `(tactic| wstep) => `(tactic| with_reducible exact Within.identifierR _ _)

protected theorem Within.tyR (total : Nat) : Within w v (tyR o total) := by unfold Kdl.tyR; wsolve
macro_rules | `(tactic| wstep) => `(tactic| with_reducible exact Within.tyR _ _)

end

section
variable (o : Recovery) [FloatIO]

protected theorem Within.valueBodyR : Within w v (valueBodyR o) := by unfold Kdl.valueBodyR; wsolve
macro_rules | `(tactic| wstep) => `(tactic| with_reducible exact Within.valueBodyR _)

protected theorem Within.valueR (total : Nat) : Within w v (valueR o total) := by unfold Kdl.valueR; wsolve
macro_rules | `(tactic| wstep) => `(tactic| with_reducible exact Within.valueR _ _)

protected theorem Within.slashdashedEntriesRF {entry : R (Option Entry)} (h : Within w v entry) :
    Within w v (slashdashedEntriesRF entry) := by
  unfold Kdl.slashdashedEntriesRF; wsolve

protected theorem Within.entryLeadingRF {entry : R (Option Entry)} (h : Within w v entry) : Within w v (entryLeadingRF entry) := by
  unfold Kdl.entryLeadingRF
  have := Within.slashdashedEntriesRF h
  wsolve

protected theorem Within.entryBodyR (total : Nat) : Within w v (entryBodyR o total) := by
  unfold Kdl.entryBodyR
  have : Within w v (R.mapCut (fun s e => some (located e s (o.failed (some .prop) s))) (R.cutErr (valueR o total))) := by
    refine .mapCut (by wsolve) ?_
    rintro s e hs hv he _ ⟨⟩
    exact located_in he (hs.trans hv) (o.failed_suffix _ s)
  wsolve
macro_rules | `(tactic| wstep) => `(tactic| with_reducible exact Within.entryBodyR _ _)

protected theorem Within.nodeEntryRF (total : Nat) {entry : R (Option Entry)} (h : Within w v entry) :
    Within w v (nodeEntryRF o total entry) := by
  unfold Kdl.nodeEntryRF
  have := Within.entryLeadingRF h
  wsolve

protected theorem Within.nodeEntryRN (total k : Nat) : Within w v (nodeEntryRN o total k) := by
  induction k with
  | zero => intro _ _ _ _ _; trivial
  | succ k ih => exact Within.nodeEntryRF o total ih

protected theorem Within.nodeEntryR (total : Nat) : Within w v (nodeEntryR o total) :=
  fun hv s l hs hl => Within.nodeEntryRN o total _ hv s l hs hl
macro_rules | `(tactic| wstep) => `(tactic| with_reducible exact Within.nodeEntryR _ _)

protected theorem Within.slashdashedEntriesR (total : Nat) : Within w v (slashdashedEntriesR o total) :=
  .slashdashedEntriesRF (.nodeEntryR o total)
macro_rules | `(tactic| wstep) => `(tactic| with_reducible exact Within.slashdashedEntriesR _ _)

section
variable {base : R Node}

protected theorem Within.leadingItemsR (h : Within w v base) : Within w v (leadingItemsR base) := by
  unfold Kdl.leadingItemsR; wsolve

protected theorem Within.nodeRF (h : Within w v base) : Within w v (nodeRF base) := by
  unfold Kdl.nodeRF
  have := Within.leadingItemsR h
  wsolve

protected theorem Within.nodesRF (total : Nat) (h : Within w v base) : Within w v (nodesRF total base) := by
  unfold Kdl.nodesRF
  have := Within.leadingItemsR h
  have := Within.nodeRF h
  wsolve

protected theorem Within.closeBraceR {x y : Str} (hx : x <:+ w) (hy : y <:+ x) (d : Document) :
    Within w y (closeBraceR x y d) := by
  intro hv s l hs hl
  unfold Kdl.closeBraceR
  have hbad : AllIn w (l ++ (⟨x, y⟩ :: if d.isEmpty then [] else [⟨y, s⟩])) := by
    intro e he
    rcases List.mem_append.mp he with he | he
    · exact hl e he
    · rcases List.mem_cons.mp he with rfl | he
      · exact ⟨hx, hy⟩
      · split at he
        · cases he
        · rw [List.mem_singleton.mp he]; exact ⟨hv, hs⟩
  cases h : Kdl.lit ['}'] s with
  | ok u r =>
    obtain ⟨t, ht⟩ := Sfx.lit _ _ _ _ h
    exact ⟨⟨t, ht.symm⟩, hl⟩
  | _ => exact ⟨List.suffix_refl s, hbad⟩

protected theorem Within.nodeChildrenRF (total : Nat) (hv : v <:+ w) (h : Within w v base) : Within w v (nodeChildrenRF total base) := by
  unfold Kdl.nodeChildrenRF
  refine .look fun x hx => .bind (.lift ?_) fun _ => .look fun y hy =>
    .bind (.nodesRF total (h.mono hv (hy.trans hx))) fun d => .closeBraceR (hx.trans hv) hy d
  wsolve

protected theorem Within.slashdashedChildrenRF (total : Nat) (hv : v <:+ w) (h : Within w v base) :
    Within w v (slashdashedChildrenRF total base) := by
  unfold Kdl.slashdashedChildrenRF
  have := Within.nodeChildrenRF total hv h
  wsolve

protected theorem Within.beforeNodeChildrenRF (total : Nat) (hv : v <:+ w) (h : Within w v base) :
    Within w v (beforeNodeChildrenRF o total base) := by
  unfold Kdl.beforeNodeChildrenRF
  have := Within.slashdashedChildrenRF total hv h
  wsolve

protected theorem Within.entriesR (total : Nat) : Within w v (entriesR o total) := by unfold Kdl.entriesR; wsolve
macro_rules | `(tactic| wstep) => `(tactic| with_reducible exact Within.entriesR _ _)

protected theorem Within.childrenR (total : Nat) (hv : v <:+ w) (h : Within w v base) : Within w v (childrenR o total base) := by
  unfold Kdl.childrenR
  have := Within.beforeNodeChildrenRF o total hv h
  have := Within.nodeChildrenRF total hv h
  wsolve

protected theorem Within.tailR (total : Nat) (b : Bool) (hv : v <:+ w) (h : Within w v base) : Within w v (tailR o total base b) := by
  unfold Kdl.tailR tailTextR
  have := Within.beforeNodeChildrenRF o total hv h
  have := Within.slashdashedChildrenRF total hv h
  wsolve

protected theorem Within.badNodeR (total : Nat) (hv : v <:+ w) (h : Within w v base) : Within w v (badNodeR total base) := by
  unfold Kdl.badNodeR
  have := Within.nodeChildrenRF total hv h
  have := Within.slashdashedChildrenRF total hv h
  wsolve

omit [FloatIO] in
protected theorem Within.checkNameR {x : Str} (hx : x <:+ w) (i : Ident) : Within w x (checkNameR x i) := by
  unfold Kdl.checkNameR
  split
  · refine .resumeWith (.mapCut (.lift Strict.cutP.sfx) ?_) (Sfx.pure ())
    rintro s e hs hv _ _ ⟨⟩
    exact ⟨hx, hs⟩
  · exact .pure _

protected theorem Within.goodNodeR (total : Nat) (hv : v <:+ w) (h : Within w v base) (s : Str) :
    Within w v (goodNodeR o total base s) := by
  unfold Kdl.goodNodeR
  refine .bind (by wsolve) fun ty => .bind (by wsolve) fun af => .look fun x hx => ?_
  have h' := h.mono hv hx
  have hx' := hx.trans hv
  have h1 := Within.childrenR o total hx' h'
  have h2 := fun b => Within.tailR o total b hx' h'
  refine .bind (by wsolve) fun name => .bind (.checkNameR hx' _) fun _ => ?_
  wsolve
  exact h2 _

protected theorem Within.openCurlyR {bad good : R Node} (hb : Within w v bad) (hg : Within w v good) :
    Within w v (openCurlyR bad good) := by
  intro hv s l hs hl
  unfold Kdl.openCurlyR
  have h := Within.resumeWith (w := w) (v := v) (p := .lift (Kdl.cutErr (notP (Kdl.lit ['{'])))) (q := Kdl.lit ['{'])
    (.lift (by wsolve)) (Sfx.lit _) hv s l hs hl
  cases h2 : R.resumeWith (.lift (Kdl.cutErr (notP (Kdl.lit ['{'])))) (Kdl.lit ['{']) s l with
  | ok a r l' =>
    simp only [h2] at h
    cases a with
    | none => exact hb hv s l' hs h.2
    | some u =>
      have h3 := hg hv r l' (h.1.trans hs) h.2
      simp only
      cases h4 : good r l' with
      | ok b r' l'' => simp only [h4] at h3 ⊢; exact ⟨h3.1.trans h.1, h3.2⟩
      | back l'' => simpa only [h4] using h3
      | cut e l'' => simpa only [h4] using h3
      | crash => trivial
  | back l' => simpa only [h2] using h
  | cut e l' => simpa only [h2] using h
  | crash => trivial

protected theorem Within.baseNodeRF (total : Nat) (hv : v <:+ w) (h : Within w v base) : Within w v (baseNodeRF o total base) := by
  unfold Kdl.baseNodeRF
  refine .bind (by wsolve) fun _ => .bind (by wsolve) fun s => .openCurlyR (.badNodeR total hv h) (.goodNodeR o total hv h s)

end

protected theorem Within.baseNodeRN (total k : Nat) (hv : v <:+ w) : Within w v (baseNodeRN o total k) := by
  induction k with
  | zero => intro _ _ _ _ _; trivial
  | succ k ih => exact Within.baseNodeRF o total hv ih

protected theorem Within.baseNodeR (total : Nat) : Within w v (baseNodeR o total) :=
  fun hv s l hs hl => Within.baseNodeRN o total _ hv hv s l hs hl

protected theorem Within.paddedNodeR (total : Nat) : Within w v (paddedNodeR o total) := by
  unfold Kdl.paddedNodeR
  have := Within.nodeRF (Within.baseNodeR (w := w) (v := v) o total)
  wsolve

protected theorem Within.paddedNodeEntryR (total : Nat) : Within w v (paddedNodeEntryR o total) := by
  unfold Kdl.paddedNodeEntryR
  wsolve

protected theorem Within.docEndR {d : R Document} (h : Within w v d) : Within w v (docEndR d) := by
  unfold Kdl.docEndR
  wsolve

protected theorem Within.documentRF (total : Nat) {d : R Document} (h : Within w v d) : Within w v (documentRF o total d) := by
  unfold Kdl.documentRF
  have := Within.nodesRF total (Within.baseNodeR (w := w) (v := v) o total)
  have := Within.docEndR h
  wsolve

protected theorem Within.documentRN (total k : Nat) : Within w v (documentRN o total k) := by
  induction k with
  | zero => intro _ _ _ _ _; trivial
  | succ k ih => exact Within.documentRF o total ih

protected theorem Within.documentR (total : Nat) : Within w v (documentR o total) :=
  fun hv s l hs hl => Within.documentRN o total _ hv s l hs hl

omit [FloatIO] in
theorem utf8Len_suffix {a b : Str} (h : a <:+ b) : utf8Len a ≤ utf8Len b := by
  obtain ⟨t, rfl⟩ := h
  rw [utf8Len_append]
  omega

omit [FloatIO] in
/-- The span of a region selects a text. -/
theorem Region.In.selects {w : Str} {e : Region} (h : e.In w) : ∃ t, Spec.Selects w (spanOf (utf8Len w) e.start e.stop) t := by
  obtain ⟨⟨a, ha⟩, ⟨t, ht⟩⟩ := h
  refine ⟨t, a, e.stop, ?_, ?_, ?_⟩
  · rw [← ha, ← ht]; simp
  · simp only [spanOf]; rw [← ha, utf8Len_append]; omega
  · simp only [spanOf]; rw [← ht, utf8Len_append]; omega

omit [FloatIO] in
/-- The spans of all diagnostics select texts of the input. -/
theorem tryParse_spans (q : Nat → R α) (hq : ∀ n (w : Str), Within w w (q n)) (s : Str) {ds : List Span}
    (h : tryParseR o q s = .err ds) : ∀ d ∈ ds, ∃ t, Spec.Selects s d t := by
  have key : ∀ a l, recoverableParse o (q (utf8Len s)) s = some (a, l) → AllIn s l := by
    intro a l hl
    have h1 := hq (utf8Len s) s (List.suffix_refl s) s [] (List.suffix_refl s) (by rintro _ ⟨⟩)
    unfold recoverableParse at hl
    cases hr : q (utf8Len s) s [] with
    | ok b r l' =>
      simp only [hr] at h1 hl
      cases r with
      | nil => cases hl; exact h1.2
      | cons c r =>
        cases hl
        exact h1.2.snoc ⟨h1.1, List.nil_suffix⟩
    | back l' =>
      simp only [hr] at h1 hl
      cases hl
      exact h1.snoc ⟨List.suffix_refl s, o.failed_suffix _ s⟩
    | cut e l' =>
      simp only [hr] at h1 hl
      cases hl
      exact h1.2.snoc (located_in h1.1 (List.suffix_refl s) (o.failed_suffix _ s))
    | crash => simp only [hr] at hl; cases hl
  unfold tryParseR at h
  cases hr : recoverableParse o (q (utf8Len s)) s with
  | none => rw [hr] at h; cases h
  | some x =>
    obtain ⟨a, l⟩ := x
    have hl := key a l hr
    rw [hr] at h
    have : ds = l.map fun e => spanOf (utf8Len s) e.start e.stop := by
      split at h
      · cases h
      · next heq => cases heq; cases h; rfl
      · next heq => cases heq
    rw [this]
    intro d hd
    obtain ⟨e, he, rfl⟩ := List.mem_map.mp hd
    exact (hl e he).selects

end

end Kdl
