import Verif.Lemmas.Parser.Documented
/-
Texts of the grammar of the parser become documented ones when spaces are put in.
-/

namespace Kdl
open Spec

/-- Both relations; slashdashes are moved only if the flag is set. -/
inductive Spc (k : Bool) : Nat → Str → Str → Prop
  | nil : Spc k 0 [] []
  | keep {n : Nat} {c : Char} {t t' : Str} (h : Spc k n t t') : Spc k n (c :: t) (c :: t')
  | put {n : Nat} {c : Char} {t t' : Str} (hc : c = ' ' ∨ c = '\n') (h : Spc k n t t') : Spc k n t (c :: t')
  | take {n : Nat} {w t t' : Str} (hk : k = true) (hw : LSpace ('/' :: '-' :: t) w)
      (h : Spc k (n + 1) ('/' :: '-' :: t) ('/' :: '-' :: t')) :
      Spc k n ('/' :: '-' :: (w ++ '/' :: '-' :: t)) ('/' :: '-' :: (w ++ ' ' :: t'))
  | back {n : Nat} {t t' : Str} (hk : k = true) (h : Spc k n t t') : Spc k (n + 1) t ('/' :: '-' :: t')

theorem Spc.spaced {k : Bool} {n : Nat} {t t' : Str} (h : Spc k n t t') (hk : k = false) : Spaced t t' := by
  induction h with
  | nil => exact .nil
  | keep _ ih => exact .keep ih
  | put hc _ ih => exact .put hc ih
  | take h | back h => rw [hk] at h; cases h

theorem Spc.shifted {k : Bool} {n : Nat} {t t' : Str} (h : Spc k n t t') : Shifted n t t' := by
  induction h with
  | nil => exact .nil
  | keep _ ih => exact .keep ih
  | put hc _ ih => exact .put hc ih
  | take _ hw _ ih => exact .take hw ih
  | back _ _ ih => exact .back ih

theorem Spc.refl {k : Bool} : ∀ t : Str, Spc k 0 t t
  | [] => .nil
  | _ :: t => .keep (Spc.refl t)

theorem Spc.join {k : Bool} {n m : Nat} {a a' b b' : Str} (h : Spc k n a a') (h' : Spc k m b b') :
    Spc k (n + m) (a ++ b) (a' ++ b') := by
  induction h with
  | nil => simpa using h'
  | keep _ ih => exact .keep ih
  | put hc _ ih => exact .put hc ih
  | @take n w t t' hk hw h ih =>
    have := Spc.take (n := n + m) (t := t ++ b) (t' := t' ++ b') hk (hw.swap (by simp) (by intro y e; cases e))
      (by rw [Nat.add_right_comm]; exact ih)
    simpa using this
  | @back n t t' hk _ ih =>
    rw [Nat.add_right_comm]
    exact .back hk ih

theorem Spc.app {k : Bool} {a a' b b' : Str} (h : Spc k 0 a a') (h' : Spc k 0 b b') : Spc k 0 (a ++ b) (a' ++ b') := h.join h'

theorem Spc.front {k : Bool} {n : Nat} {a a' : Str} (h : Spc k n a a') : ∀ b : Str, Spc k n (b ++ a) (b ++ a')
  | [] => h
  | _ :: b => .keep (h.front b)

theorem Spc.blank {k : Bool} {n : Nat} {t t' : Str} (h : Spc k n t t') : Spc k n t (' ' :: t') := .put (Or.inl rfl) h
theorem Spc.line {k : Bool} {n : Nat} {t t' : Str} (h : Spc k n t t') : Spc k n t ('\n' :: t') := .put (Or.inr rfl) h

/-- Doubled slashdashes are allowed if they may be moved. -/
def Fit (k : Bool) (t : Str) : Prop := k = true ∨ ¬ DoubleSlash t

theorem double_in {s : Str} (h : DoubleSlash s) (p q : Str) : DoubleSlash (p ++ (s ++ q)) := by
  obtain ⟨a, w, b, rfl, hw⟩ := h
  exact ⟨p ++ a, w, b ++ q, by simp, hw.swap (by simp) (by intro y e; cases e)⟩

theorem noDouble {k : Bool} {t : Str} (h : Fit k t) {p s q : Str} (e : t = p ++ (s ++ q)) : Fit k s :=
  h.imp_right fun h hs => h (e ▸ double_in hs p q)

/-- Texts with the same first character, and both with a second slash after a first one. -/
def Hd (t t' : Str) : Prop :=
  (t = [] ∧ t' = []) ∨ ∃ c q q', t = c :: q ∧ t' = c :: q' ∧ (c = '/' → ∀ y, q = '/' :: y → ∃ y', q' = '/' :: y')

theorem Hd.refl (t : Str) : Hd t t := by
  cases t with
  | nil => exact Or.inl ⟨rfl, rfl⟩
  | cons c t => exact Or.inr ⟨c, t, t, rfl, rfl, fun _ y e => ⟨y, e⟩⟩

/-- Behind a node start. -/
theorem Hd.more {t t' : Str} (h : Hd t t') (ht : Starts t) (a a' : Str) : Hd (t ++ a) (t' ++ a') := by
  rcases h with ⟨rfl, _⟩ | ⟨c, q, q', rfl, rfl, _⟩
  · obtain ⟨_, _, e, _⟩ := ht; cases e
  · obtain ⟨_, _, e, hc⟩ := ht
    obtain ⟨rfl, rfl⟩ := List.cons.inj e
    exact Or.inr ⟨c, _, _, rfl, rfl, fun e => absurd e hc.facts.2.1⟩

theorem Hd.starts {t t' : Str} (h : Hd t t') (ht : Starts t) : Starts t' := by
  rcases h with ⟨rfl, rfl⟩ | ⟨c, q, q', rfl, rfl, _⟩
  · exact ht
  · obtain ⟨_, _, e, hc⟩ := ht
    obtain ⟨rfl, rfl⟩ := List.cons.inj e
    exact ⟨_, _, rfl, hc⟩

/-- Contexts that spaces cannot tell apart. -/
def SameEnd (r r' : Str) : Prop := (r = [] ↔ r' = []) ∧ NlImp r' r

theorem SameEnd.refl (r : Str) : SameEnd r r := ⟨Iff.rfl, fun q e => ⟨q, e⟩⟩

theorem Hd.same {t t' r r' : Str} (h : Hd t t') (hr : SameEnd r r') : SameEnd (t ++ r) (t' ++ r') := by
  rcases h with ⟨rfl, rfl⟩ | ⟨c, q, q', rfl, rfl, _⟩
  · exact hr
  · refine ⟨by simp, fun y e => ?_⟩
    obtain ⟨rfl, _⟩ := List.cons.inj e
    exact ⟨_, rfl⟩

theorem SameEnd.blank {r : Str} (h : r ≠ []) (q : Str) : SameEnd r (' ' :: q) :=
  ⟨by simp [h], fun y e => absurd (List.cons.inj e).1 (by decide)⟩

theorem SameEnd.nspace {r r' w : Str} (h : SameEnd r r') (hw : NSpace r w) : NSpace r' w := by
  by_cases hr : r = []
  · rw [h.1.mp hr]; rwa [hr] at hw
  · exact hw.swapH hr h.2

theorem SameEnd.lspace {r r' w : Str} (h : SameEnd r r') (hw : LSpace r w) : LSpace r' w := by
  by_cases hr : r = []
  · rw [h.1.mp hr]; rwa [hr] at hw
  · exact hw.swapH hr h.2

theorem SameEnd.term {m r r' : Str} (h : SameEnd r r') (hm : TermText m r) : DTerm m r' := by
  rcases hm with hm | hm | hm
  · exact Or.inr (Or.inr (Or.inl hm))
  · exact Or.inr (Or.inl (NewlineSeq.swapH (t := []) hm h.2))
  · refine Or.inl ?_
    by_cases hr : r = []
    · rw [h.1.mp hr]; rwa [hr] at hm
    · exact LineComment.swapH (t := []) hm hr h.2

section
variable [FloatIO]

/-- The nodes of a document or block, by the documented grammar. -/
def All (ds : List (SNode Value)) (r X : Str) : Prop :=
  ∃ N F d1 d2, X = N ++ F ∧ ds = d1 ++ d2 ∧ Doc false (.nodes d1) (F ++ r) N ∧ Doc false (.final d2) r F

theorem All.nil (r : Str) : All [] r [] := ⟨[], [], [], [], rfl, rfl, .noNode .nil, .noFinal⟩

theorem All.space {ds : List (SNode Value)} {r X w : Str} (h : All ds r X) (hw : LSpace (X ++ r) w) : All ds r (w ++ X) := by
  obtain ⟨N, F, d1, d2, rfl, rfl, hN, hF⟩ := h
  refine ⟨w ++ N, F, d1, d2, by simp, rfl, ?_, hF⟩
  rw [List.append_assoc] at hw
  cases hN with
  | noNode hl => exact .noNode (hw.app hl)
  | @node s _ l B v m T d ds hl hB hv hm hs hT =>
    have := Doc.node (l := w ++ l) (LSpace.app (by simpa using hw) hl) hB hv hm hs hT
    simpa using this

theorem All.node {ds : List (SNode Value)} {s : Bool} {d : SNode Value} {r X B w m : Str} (h : All ds r X)
    (hB : Doc false (.base s d) (w ++ (m ++ (X ++ r))) B) (hw : NSpace (m ++ (X ++ r)) w) (hm : DTerm m (X ++ r))
    (hs : s = true → m ≠ [';']) : All (shown s d ++ ds) r (B ++ (w ++ (m ++ X))) := by
  obtain ⟨N, F, d1, d2, rfl, rfl, hN, hF⟩ := h
  refine ⟨B ++ (w ++ (m ++ N)), F, shown s d ++ d1, d2, by simp, by simp, ?_, hF⟩
  have := Doc.node (l := []) .nil (by simpa using hB) (by simpa using hw) (by simpa using hm) (fun h _ => hs h) hN
  simpa using this

/-- Beginning of a documented node. -/
theorem base_head {c : DCat} {r B : Str} {semi : Bool} (h : Doc semi c r B) {s : Bool} {d : SNode Value} (hc : c = .base s d) :
    ∃ c q, B = c :: q ∧ ¬ Newline c ∧ (c = '/' → ∀ y, q ≠ '/' :: y) := by
  cases h with
  | @base s r sl tt nt T S C S' w nm ty ds cs hs ht hn =>
    cases hs with
    | yes => exact ⟨_, _, rfl, by decide, fun _ y e => absurd (List.cons.inj e).1 (by decide)⟩
    | no =>
      cases ht with
      | some => exact ⟨_, _, rfl, by decide, fun e => absurd e (by decide)⟩
      | none hw =>
        cases hw with
        | nil =>
          obtain ⟨c, q, e, hc⟩ := (StrTok.text hn).starts
          rw [e]
          exact ⟨c, _, rfl, hc.notNewline, fun e => absurd e hc.facts.2.1⟩
        | @space c t h1 => exact ⟨c, _, rfl, space_not_newline h1, fun e => absurd h1 (by rw [e]; decide)⟩
        | comment => exact ⟨_, _, rfl, by decide, fun _ y e => absurd (List.cons.inj e).1 (by decide)⟩
        | cont => exact ⟨_, _, rfl, by decide, fun e => absurd e (by decide)⟩
  | _ => cases hc

theorem base_slash {c : DCat} {r B : Str} {semi : Bool} (h : Doc semi c r B) {s : Bool} {d : SNode Value} (hc : c = .base s d)
    (e : B = ['/']) : False := by
  cases h with
  | @base s r sl tt nt T S C S' w nm ty ds cs hs ht hn =>
    cases hs with
    | yes => cases e
    | no =>
      cases ht with
      | some => cases e
      | none hw =>
        cases hw with
        | nil =>
          obtain ⟨c, q, e', hc⟩ := (StrTok.text hn).starts
          rw [e'] at e
          exact hc.facts.2.1 (List.cons.inj e).1
        | @space c t h1 =>
          obtain ⟨rfl, _⟩ := List.cons.inj e
          exact absurd h1 (by decide)
        | comment => cases e
        | cont => exact absurd (List.cons.inj e).1 (by decide)
  | _ => cases hc

theorem final_nil {c : DCat} {r F : Str} {semi : Bool} (h : Doc semi c r F) {ds : List (SNode Value)} (hc : c = .final ds) (hF : F = []) :
    ds = [] := by
  cases h with
  | noFinal => injection hc with e; exact e.symm
  | final hB =>
    obtain ⟨c, q, rfl, _⟩ := base_head hB rfl
    cases hF
  | _ => cases hc

theorem All.ofNil {ds : List (SNode Value)} {r X : Str} (h : All ds r X) (hX : X = []) : ds = [] := by
  obtain ⟨N, F, d1, d2, rfl, rfl, hN, hF⟩ := h
  obtain ⟨rfl, rfl⟩ := List.append_eq_nil_iff.mp hX
  rw [final_nil hF rfl rfl, List.append_nil]
  generalize e : (([] : Str) ++ r) = r' at hN
  generalize e' : ([] : Str) = N at hN
  cases hN with
  | noNode => rfl
  | node _ hB =>
    obtain ⟨c, q, rfl, _⟩ := base_head hB rfl
    simp at e'

/-- A single node at the end of a block or document. -/
theorem All.last {s : Bool} {d : SNode Value} {r B : Str} (hB : Doc false (.base s d) r B) : All (shown s d) r B := by
  refine ⟨[], B, [], shown s d, rfl, rfl, .noNode .nil, ?_⟩
  have := Doc.final (w := []) (m := []) (by simpa using hB) .nil (Or.inl rfl) (by intro _ _ e; cases e)
  simpa using this

omit [FloatIO] in
theorem lspace_cut {R l Z : Str} (h : LSpace R l) (hl : l ≠ []) {c : Char} {q : Str} (e : l ++ Z = c :: q)
    (hc : Newline c ∨ (c = '/' ∧ ∃ y, q = '/' :: y)) : ∃ m l', l = m ++ l' ∧ DTerm m (l' ++ R) ∧ m ≠ [';'] ∧ LSpace R l' := by
  cases h with
  | nil => exact absurd rfl hl
  | space h1 =>
    obtain ⟨rfl, _⟩ := List.cons.inj e
    rcases hc with hc | ⟨rfl, _⟩
    · exact absurd hc (space_not_newline h1)
    · exact absurd h1 (by decide)
  | comment =>
    obtain ⟨rfl, rfl⟩ := List.cons.inj e
    rcases hc with hc | ⟨_, y, hc⟩
    · exact absurd hc (by decide)
    · exact absurd (List.cons.inj hc).1 (by decide)
  | cont =>
    obtain ⟨rfl, _⟩ := List.cons.inj e
    rcases hc with hc | ⟨hc, _⟩
    · exact absurd hc (by decide)
    · exact absurd hc (by decide)
  | @newline m t hm ht =>
    refine ⟨m, t, rfl, Or.inr (Or.inl hm), ?_, ht⟩
    rintro rfl
    obtain ⟨c, q, e, hc⟩ := hm.head
    obtain ⟨rfl, _⟩ := List.cons.inj e
    exact absurd hc (by decide)
  | @line m t hm ht =>
    refine ⟨m, t, rfl, Or.inl hm, ?_, ht⟩
    rintro rfl
    obtain ⟨b, nl, e, _⟩ := hm
    cases e

/-- Taking the newline or the comment at the beginning of a text. -/
theorem All.cut {ds : List (SNode Value)} {r X : Str} (h : All ds r X) {c : Char} {q : Str} (e : X = c :: q)
    (hc : Newline c ∨ (c = '/' ∧ ∃ y, q = '/' :: y)) : ∃ m X', X = m ++ X' ∧ DTerm m (X' ++ r) ∧ m ≠ [';'] ∧ All ds r X' := by
  obtain ⟨N, F, d1, d2, rfl, rfl, hN, hF⟩ := h
  have hno {B Z : Str} {s : Bool} {d : SNode Value} {r' : Str} (hB : Doc false (.base s d) r' B) (e : B ++ Z = c :: q) : False := by
    obtain ⟨c', q', rfl, h1, h2⟩ := base_head hB rfl
    obtain ⟨rfl, rfl⟩ := List.cons.inj e
    rcases hc with hc | ⟨hc, y, hy⟩
    · exact h1 hc
    · cases q' with
      | nil =>
        -- a node is longer than one character if it begins with a slash
        subst hc
        exact base_slash hB rfl rfl
      | cons a q' =>
        obtain ⟨rfl, _⟩ := List.cons.inj hy
        exact h2 hc _ rfl
  cases hN with
  | @noNode _ l hl =>
    by_cases h0 : N = []
    · subst h0
      exfalso
      generalize e' : DCat.final d2 = cat at hF
      cases hF with
      | noFinal => cases e
      | final hB => exact hno hB (by simpa using e)
      | _ => cases e'
    · obtain ⟨m, l', rfl, h1, h2, h3⟩ := lspace_cut hl h0 e hc
      exact ⟨m, l' ++ F, by simp, by simpa using h1, h2, l', F, [], d2, rfl, rfl, .noNode h3, hF⟩
  | @node s _ l B w m T d ds hl hB hw hm hs hT =>
    by_cases h0 : l = []
    · subst h0
      exact (hno hB (by simpa using e)).elim
    · obtain ⟨m', l', rfl, h1, h2, h3⟩ := lspace_cut hl h0 (Z := B ++ (w ++ (m ++ T)) ++ F) (by simpa using e) hc
      exact ⟨m', l' ++ (B ++ (w ++ (m ++ T))) ++ F, by simp, by simpa using h1, h2, _, F, _, d2, rfl, rfl, .node h3 hB hw hm hs hT, hF⟩

theorem entry_ne {d : SEntry Value} {t : Str} (h : EntryText d t) : t ≠ [] := by
  obtain ⟨c, q, rfl, _⟩ : Starts t := (EntTok.text h).1
  simp

/-- Two slashdashes without an entry between them. -/
theorem fit_nest {k f : Bool} {b S R : Str} (hb : LSpace S b) (hS : SdEnd f S) (hn : Fit k ('/' :: '-' :: (b ++ (S ++ R)))) : k = true := by
  obtain ⟨q, rfl⟩ := sdEnd_head hS
  exact hn.elim id fun hn => absurd ⟨[], b, _, rfl, hb.swap (by simp) (by intro y e; cases e)⟩ hn

/-- The second of them is moved. -/
theorem nest_spc {k f : Bool} {b S R Z R' : Str} (hk : k = true) (hb : LSpace S b) (hS : SdEnd f S) (h : Spc k 0 S ('/' :: '-' :: Z))
    (hR : Spc k 1 R R') : Spc k 0 ('/' :: '-' :: (b ++ (S ++ R))) ('/' :: '-' :: (b ++ ' ' :: (Z ++ R'))) := by
  obtain ⟨q, rfl⟩ := sdEnd_head hS
  exact .take hk (hb.swap (by simp) (by intro y e; cases e)) (h.join hR)

theorem nest_space {b b' S Z R : Str} (hb : LSpace S b) (hS : S ≠ []) (h : LSpace (b ++ ' ' :: (Z ++ R)) b') : LSpace Z (b' ++ (b ++ [' '])) := by
  have h1 : LSpace (b ++ [' '] ++ Z) b' := by
    refine h.swapH (by simp) fun q e => ?_
    cases b with
    | nil => cases e
    | cons c b =>
      cases e
      exact ⟨_, rfl⟩
  have h2 : LSpace ([' '] ++ Z) b := hb.swap hS (by intro y e; cases e)
  exact h1.app (h2.app (.space (by decide) .nil))

/-- Slashdashed entries in front of documented entries. -/
theorem sdEnd_doc {k : Bool} {f : Bool} {S : Str} (h : SdEnd f S) : Fit k S → ∃ Z, Spc k 0 S ('/' :: '-' :: Z) ∧
    ∀ {b w T : Str} {ds : List (SEntry Value)}, LSpace Z b → NSpace ['/'] w → w ≠ [] → DEntries ds T →
      DEntries ds (w ++ ('/' :: '-' :: (b ++ (Z ++ T)))) := by
  induction h with
  | @one f b E d hb hE =>
    intro _
    refine ⟨b ++ E, Spc.refl _, fun {b' w T ds} hb' hw hne hT => ?_⟩
    have := DEntries.cons (s := true) (w := w) (sl := '/' :: '-' :: (b' ++ b)) (hw.over (by simp) (by decide)) hne (.yes (hb'.app hb)) hE.entry hT
    simpa [shown] using this
  | @nest f b S v E d hb hS hv hne' hE ih =>
    intro hn
    have hk := fit_nest hb hS hn
    obtain ⟨Z, h1, h2⟩ := ih (noDouble hn (p := '/' :: '-' :: b) (q := v ++ E) (by simp))
    refine ⟨b ++ ' ' :: (Z ++ (v ++ '/' :: '-' :: E)), nest_spc hk hb hS h1 (Spc.front (.back hk (Spc.refl E)) v), fun {b' w T ds} hb' hw hne hT => ?_⟩
    have h3 := DEntries.cons (s := true) (w := v) (sl := ['/', '-']) (hv.over (entry_ne hE.entry) (by decide)) hne' (.yes .nil) hE.entry hT
    have h4 := h2 (nest_space hb (by obtain ⟨q, rfl⟩ := sdEnd_head hS; simp) hb') hw hne h3
    simpa [shown] using h4
  | @cons f b E v T0 d hb hE hv hne' hT0 ih =>
    intro hn
    obtain ⟨Z, h1, h2⟩ := ih (noDouble hn (p := '/' :: '-' :: (b ++ (E ++ v))) (q := []) (by simp))
    refine ⟨b ++ (E ++ (v ++ '/' :: '-' :: Z)), .keep (.keep (((h1.front v).front E).front b)), fun {b' w T ds} hb' hw hne hT => ?_⟩
    have h3 := h2 (b := []) .nil (hv.over (by obtain ⟨q, rfl⟩ := sdEnd_head hT0; simp) (by decide)) hne' hT
    have hb'' : LSpace (b ++ E) b' := LSpace.cut (r := v ++ '/' :: '-' :: Z) (by simpa using hb') (by simp [entry_ne hE])
    have := DEntries.cons (s := true) (w := w) (sl := '/' :: '-' :: (b' ++ b)) (hw.over (by simp) (by decide)) hne (.yes (hb''.app hb)) hE h3
    simpa [shown] using this
  | @nestCons f b S u E v T0 d hb hS hu hneu hE hv hne' hT0 ihS ihT =>
    intro hn
    have hk := fit_nest hb hS hn
    obtain ⟨Z, h1, h2⟩ := ihS (noDouble hn (p := '/' :: '-' :: b) (q := u ++ (E ++ (v ++ T0))) (by simp))
    obtain ⟨Z', h1', h2'⟩ := ihT (noDouble hn (p := '/' :: '-' :: (b ++ (S ++ (u ++ (E ++ v))))) (q := []) (by simp))
    refine ⟨b ++ ' ' :: (Z ++ (u ++ '/' :: '-' :: (E ++ (v ++ '/' :: '-' :: Z')))),
      nest_spc hk hb hS h1 (Spc.front (.back hk ((h1'.front v).front E)) u), fun {b' w T ds} hb' hw hne hT => ?_⟩
    have h0 := h2' (b := []) .nil (hv.over (by obtain ⟨q, rfl⟩ := sdEnd_head hT0; simp) (by decide)) hne' hT
    have h3 := DEntries.cons (s := true) (w := u) (sl := ['/', '-']) (hu.over (entry_ne hE) (by decide)) hneu (.yes .nil) hE h0
    have h4 := h2 (nest_space hb (by obtain ⟨q, rfl⟩ := sdEnd_head hS; simp) hb') hw hne h3
    simpa [shown] using h4

theorem sdEnd_front {k : Bool} {f : Bool} {S : Str} (h : SdEnd f S) (hn : Fit k S) : ∃ S', Spc k 0 S S' ∧
    ∀ {w T : Str} {ds : List (SEntry Value)}, NSpace S w → w ≠ [] → DEntries ds T → DEntries ds (w ++ (S' ++ T)) := by
  obtain ⟨Z, h1, h2⟩ := sdEnd_doc h hn
  refine ⟨_, h1, fun {w T ds} hw hne hT => ?_⟩
  exact h2 (b := []) .nil (hw.over (by obtain ⟨q, rfl⟩ := sdEnd_head h; simp) (by decide)) hne hT

theorem entries_doc {k : Bool} {ds : List (SEntry Value)} {T : Str} (h : EntriesText ds T) : Fit k T → ∃ T', Spc k 0 T T' ∧
    ∀ {es : List (SEntry Value)} {U : Str}, DEntries es U → DEntries (ds ++ es) (T' ++ U) := by
  induction h with
  | nil => intro _; exact ⟨[], .nil, fun h => h⟩
  | @cons w t T d ds hw ht _ ih =>
    intro hn
    obtain ⟨T', h0, h1⟩ := ih (noDouble hn (p := w ++ t) (q := []) (by simp))
    cases hw with
    | space hw hne =>
      refine ⟨w ++ (t ++ T'), (h0.front t).front w, fun {es U} hU => ?_⟩
      have := DEntries.cons (s := false) (sl := []) (by simpa using hw) hne .no ht (h1 hU)
      simpa [shown] using this
    | @slash w S v hw hne hS hv hne' =>
      obtain ⟨S', h2, h3⟩ := sdEnd_front hS (noDouble hn (p := w) (q := v ++ (t ++ T)) (by simp))
      refine ⟨w ++ (S' ++ (v ++ (t ++ T'))), by simpa using (h2.app ((h0.front t).front v)).front w, fun {es U} hU => ?_⟩
      have h4 := DEntries.cons (s := false) (sl := []) (by simpa using hv) hne' .no ht (h1 hU)
      simpa [shown] using h3 hw hne h4

/-- The end of a document or of a block. -/
def Closes (r r' : Str) : Prop := (r = [] ∧ r' = []) ∨ ∃ x y, r = '}' :: x ∧ r' = '}' :: y

/-- What a text of the parser's grammar becomes when spaces are put in. -/
def Becomes (g : Bool) : Cat → Str → Str → Prop
  | .blocks, _, C => ∃ C', Spc g 0 C C' ∧ ∀ w y, w ≠ [] → NSpace ['/'] w → Doc false .skipped y (w ++ C')
  | .mid _, r, w => ∃ T S v, Spc g 0 w (T ++ (S ++ v)) ∧ DEntries [] T ∧ (∀ y, Doc false .skipped y S) ∧ ∀ r', SameEnd r r' → NSpace r' v
  | .tail, r, w => ∃ S v, Spc g 0 w (S ++ v) ∧ (∀ y, Doc false .skipped y S) ∧ ∀ r', SameEnd r r' → NSpace r' v
  | .node _ d, r, B => ∃ B', Spc g 0 B B' ∧ Hd B B' ∧ ∀ r', SameEnd r r' → Doc false (.base false d) r' B' ∧
      ∀ b, LSpace B b → Doc false (.base true d) r' ('/' :: '-' :: (b ++ B'))
  | .lead, r, L => ∀ ds X r0, (r = r0 ∧ X = []) ∨ (∃ T, r = T ++ r0 ∧ Starts T ∧ Hd T X) → (∀ r', Closes r0 r' → All ds r' X) → (∃ r', Closes r0 r') →
      ∃ L', Spc g 0 L L' ∧ Hd L L' ∧ ∀ r', Closes r0 r' → All ds r' (L' ++ X)
  | .items ds, r, T => (∃ r', Closes r r') → ∃ T', Spc g 0 T T' ∧ Hd T T' ∧ ∀ r', Closes r r' → All ds r' T'
  | .nodes ds, r, T => (∃ r', Closes r r') → ∃ T', Spc g 0 T T' ∧ Hd T T' ∧ ∀ r', Closes r r' → All ds r' T'

/-- Putting the parts of a documented node together. -/
theorem base_build {g : Bool} {ty : Option Str} {nm tt nt T S C S' w r R : Str} {ds : List (SEntry Value)} {cs : Option (List (SNode Value))}
    (h1 : TyText nt ty tt) (h2 : StrText nt nm) (hT : DEntries ds T) (hS : ∀ y, Doc false .skipped y S)
    (hC : ∀ y, Doc false (.block cs) y C) (hS' : ∀ y, Doc false .skipped y S') (hw : ∀ r', SameEnd r r' → NSpace r' w)
    (hsp : Spc g 0 R (T ++ (S ++ (C ++ (S' ++ w))))) :
    ∃ B', Spc g 0 (tt ++ (nt ++ R)) B' ∧ Hd (tt ++ (nt ++ R)) B' ∧ ∀ r', SameEnd r r' → Doc false (.base false (.mk ty nm ds cs)) r' B' ∧
      ∀ b, LSpace (tt ++ (nt ++ R)) b → Doc false (.base true (.mk ty nm ds cs)) r' ('/' :: '-' :: (b ++ B')) := by
  have hne : tt ++ nt ≠ [] := fun e => h2.ne (List.append_eq_nil_iff.mp e).2
  have ht : DType nt ty tt := by
    cases h1 with
    | none => exact .none .nil
    | some hi hb ha hf => exact .some hi hb ha hf
  refine ⟨tt ++ (nt ++ (T ++ (S ++ (C ++ (S' ++ w))))), (hsp.front nt).front tt, ?_, fun r' hr => ⟨?_, fun b hb => ?_⟩⟩
  · have hst : Starts (tt ++ nt) := by
      cases h1 with
      | none => exact (StrTok.text h2).starts
      | some => exact ⟨_, _, rfl, Or.inr (Or.inr (Or.inr rfl))⟩
    have := (Hd.refl (tt ++ nt)).more hst R (T ++ (S ++ (C ++ (S' ++ w))))
    simpa using this
  · exact .base .no ht h2 hT (hS _) (hC _) (hS' _) (hw r' hr)
  · have hb' : LSpace (tt ++ nt) b := LSpace.cut (r := R) (by simpa using hb) hne
    have := Doc.base (.yes hb') ht h2 hT (hS _) (hC _) (hS' _) (hw r' hr)
    simpa using this

theorem children_doc {cs : List (SNode Value)} {D' : Str} (h : ∀ y, All cs ('}' :: y) D') (y : Str) :
    Doc false (.children cs) y ('{' :: (D' ++ ['}'])) := by
  obtain ⟨N, F, d1, d2, rfl, rfl, hN, hF⟩ := h y
  have := Doc.children hN hF
  simpa using this

theorem same_closes {r r' : Str} (h : Closes r r') : SameEnd r r' := by
  rcases h with ⟨rfl, rfl⟩ | ⟨x, y, rfl, rfl⟩
  · exact SameEnd.refl _
  · exact ⟨by simp, fun q e => absurd (List.cons.inj e).1 (by decide)⟩

/-- What may stand in front of a node begins neither like the end of a block nor like a terminator. -/
theorem lead_begins {c : Cat} {r L : Str} (h : Text c r L) : c = .lead → (∀ q, L ≠ '}' :: q ∧ L ≠ ';' :: q) ∧ L ≠ ['/'] := by
  induction h with
  | leadNil => intro _; simp
  | @leadSpace r w L hw _ ih =>
    intro e
    cases hw with
    | nil => exact ih e
    | @space c t h1 =>
      refine ⟨fun q => ⟨fun e => ?_, fun e => ?_⟩, fun e => ?_⟩ <;> obtain ⟨rfl, _⟩ := List.cons.inj e <;> exact absurd h1 (by decide)
    | comment => exact ⟨fun q => ⟨fun e => absurd (List.cons.inj e).1 (by decide), fun e => absurd (List.cons.inj e).1 (by decide)⟩, fun e => by cases e⟩
    | cont => exact ⟨fun q => ⟨fun e => absurd (List.cons.inj e).1 (by decide), fun e => absurd (List.cons.inj e).1 (by decide)⟩,
        fun e => absurd (List.cons.inj e).1 (by decide)⟩
    | @newline m t hm =>
      obtain ⟨c, q, rfl, hc⟩ := hm.head
      refine ⟨fun q => ⟨fun e => ?_, fun e => ?_⟩, fun e => ?_⟩ <;> obtain ⟨rfl, _⟩ := List.cons.inj e <;> exact absurd hc (by decide)
    | @line m t hm =>
      obtain ⟨b, nl, rfl, _⟩ := hm
      exact ⟨fun q => ⟨fun e => absurd (List.cons.inj e).1 (by decide), fun e => absurd (List.cons.inj e).1 (by decide)⟩, fun e => by cases e⟩
  | leadNode =>
    intro _
    exact ⟨fun q => ⟨fun e => absurd (List.cons.inj e).1 (by decide), fun e => absurd (List.cons.inj e).1 (by decide)⟩, fun e => by cases e⟩
  | _ => intro e; cases e

/-- A newline put in behind a node. -/
theorem put_line {ds : List (SNode Value)} {s : Bool} {d : SNode Value} {r X B Z : Str} (h : All ds r X) (hZ : Z ≠ [])
    (hB : ∀ r', SameEnd Z r' → Doc false (.base s d) r' B) : All (shown s d ++ ds) r (B ++ ' ' :: '\n' :: X) :=
  h.node (w := [' ']) (m := ['\n']) (hB _ (SameEnd.blank hZ _)) (.space (by decide) .nil) (Or.inr (Or.inl (Or.inr ⟨'\n', rfl, by decide, fun e => absurd e (by decide)⟩))) (fun _ => by decide)

theorem text_becomes {g : Bool} {c : Cat} {r t : Str} (h : Text c r t) : Fit g t → Becomes g c r t := by
  induction h with
  | @leaf k ty nm tt nt T w r ds h1 h2 h3 _ ih =>
    intro hn
    obtain ⟨T', S, v, hsp, hT', hS, hv⟩ := ih (noDouble hn (p := tt ++ (nt ++ T)) (q := []) (by simp))
    obtain ⟨U, hspT, hU⟩ := entries_doc h3 (noDouble hn (p := tt ++ nt) (q := w) (by simp))
    have hT := hU hT'
    rw [List.append_nil] at hT
    exact base_build h1 h2 hT hS (fun _ => .noBlock) (fun _ => .skipNil) hv (by simpa using hspT.app hsp)
  | @leafKeyword ty nm tt nt T w t r ds d h1 h2 h3 h4 h5 =>
    intro hn
    obtain ⟨U, hspT, hU⟩ := entries_doc h3 (noDouble hn (p := tt ++ nt) (q := w ++ t) (by simp))
    obtain ⟨V, hspV, hV⟩ := entries_doc (.cons h4 h5.entry .nil) (noDouble hn (p := tt ++ (nt ++ T)) (q := []) (by simp))
    have hT := hU (hV .nil)
    rw [List.append_nil] at hT
    exact base_build h1 h2 hT (fun _ => .skipNil) (fun _ => .noBlock) (fun _ => .skipNil) (fun _ _ => .nil)
      (by simpa using hspT.app hspV)
  | @block k ty nm tt nt T w D v r ds cs h1 h2 h3 h4 h5 h6 ih4 ih5 ih6 =>
    intro hn
    obtain ⟨T', S, u, hsp, hT', hS, hu⟩ := ih4 [] (noDouble hn (p := tt ++ (nt ++ T)) (q := '{' :: (D ++ '}' :: v)) (by simp))
    obtain ⟨D', hD', _, hD⟩ := ih5 [] (noDouble hn (p := tt ++ (nt ++ (T ++ (w ++ ['{'])))) (q := '}' :: v) (by simp)) ⟨['}'], Or.inr ⟨_, _, rfl, rfl⟩⟩
    obtain ⟨S', v', hspv, hS', hv⟩ := ih6 (noDouble hn (p := tt ++ (nt ++ (T ++ (w ++ '{' :: (D ++ ['}']))))) (q := []) (by simp))
    obtain ⟨U, hspT, hU⟩ := entries_doc h3 (noDouble hn (p := tt ++ nt) (q := w ++ '{' :: (D ++ '}' :: v)) (by simp))
    have hT := hU hT'
    rw [List.append_nil] at hT
    have hch := children_doc fun y => hD ('}' :: y) (Or.inr ⟨_, _, rfl, rfl⟩)
    have hsp' : Spc g 0 ('{' :: (D ++ '}' :: v)) ('{' :: (D' ++ '}' :: (S' ++ v'))) := .keep (hD'.app (.keep hspv))
    have hu' (y : Str) : NSpace ('{' :: y) u := hu _ ⟨by simp, fun q e => absurd (List.cons.inj e).1 (by decide)⟩
    by_cases hne : u = []
    · subst hne
      refine base_build (C := ' ' :: '{' :: (D' ++ ['}'])) h1 h2 hT hS (fun y => ?_) hS' hv ?_
      · exact .block (w := [' ']) (.space (by decide) .nil) (by simp) (hch y)
      · have := (hspT.app hsp).app (Spc.blank hsp')
        simpa using this
    · refine base_build (C := u ++ '{' :: (D' ++ ['}'])) h1 h2 hT hS (fun y => ?_) hS' hv ?_
      · exact .block (hu' _) hne (hch y)
      · have := (hspT.app hsp).app hsp'
        simpa using this
  | @midSpace r w h =>
    intro hn
    exact ⟨[], [], w, Spc.refl w, .nil, fun _ => .skipNil, fun _ hr => hr.nspace h⟩
  | @midEntries r w S v h1 hne h2 h3 =>
    intro hn
    obtain ⟨S', hspS, hS⟩ := sdEnd_front h2 (noDouble hn (p := w) (q := v) (by simp))
    refine ⟨w ++ (S' ++ []), [], v, by simpa using (hspS.app (Spc.refl v)).front w, ?_, fun _ => .skipNil, fun _ hr => hr.nspace h3⟩
    exact hS h1 hne .nil
  | @midKeyword r w S h1 hne h2 =>
    intro hn
    obtain ⟨S', hspS, hS⟩ := sdEnd_front h2 (noDouble hn (p := w) (q := []) (by simp))
    refine ⟨w ++ (S' ++ []), [], [], by simpa using hspS.front w, ?_, fun _ => .skipNil, fun _ _ => .nil⟩
    exact hS h1 hne .nil
  | @midBlocks k r w C v h1 hne h2 h3 ih =>
    intro hn
    obtain ⟨C', hsp, hC⟩ := ih (noDouble hn (p := w) (q := v) (by simp))
    obtain ⟨q, rfl⟩ := blocks_head h2 rfl
    refine ⟨[], w ++ C', v, by simpa using (hsp.app (Spc.refl v)).front w, .nil, fun y => hC w y hne ?_, fun _ hr => hr.nspace h3⟩
    exact h1.over (by simp) (by decide)
  | @midBoth k r w S u C v h1 hne h2 h3 hne' h4 h5 ih =>
    intro hn
    obtain ⟨C', hsp, hC⟩ := ih (noDouble hn (p := w ++ (S ++ u)) (q := v) (by simp))
    obtain ⟨q, rfl⟩ := blocks_head h4 rfl
    obtain ⟨S', hspS, hS⟩ := sdEnd_front h2 (noDouble hn (p := w) (q := u ++ ('/' :: '-' :: q ++ v)) (by simp))
    refine ⟨w ++ (S' ++ []), u ++ C', v, ?_, hS h1 hne .nil, fun y => hC u y hne' (h3.over (by simp) (by decide)), fun _ hr => hr.nspace h5⟩
    simpa using (hspS.app ((hsp.app (Spc.refl v)).front u)).front w
  | @tailSpace r w h =>
    intro hn
    exact ⟨[], w, Spc.refl w, fun _ => .skipNil, fun _ hr => hr.nspace h⟩
  | @tailBlocks r w C v h1 h2 h3 ih =>
    intro hn
    obtain ⟨C', hsp, hC⟩ := ih (noDouble hn (p := w) (q := v) (by simp))
    obtain ⟨q, rfl⟩ := blocks_head h2 rfl
    have h1' : NSpace ['/'] w := h1.over (by simp) (by decide)
    by_cases hw : w = []
    · subst hw
      refine ⟨' ' :: C', v, by simpa using Spc.blank (hsp.app (Spc.refl v)), fun y => ?_, fun _ hr => hr.nspace h3⟩
      exact hC [' '] y (by simp) (.space (by decide) .nil)
    · exact ⟨w ++ C', v, by simpa using (hsp.app (Spc.refl v)).front w, fun y => hC w y hw h1', fun _ hr => hr.nspace h3⟩
  | @blocksOne b D cs hb hD ih =>
    intro hn
    obtain ⟨D', hsp, _, hD'⟩ := ih [] (noDouble hn (p := '/' :: '-' :: (b ++ ['{'])) (q := ['}']) (by simp)) ⟨['}'], Or.inr ⟨_, _, rfl, rfl⟩⟩
    have hch := children_doc fun y => hD' ('}' :: y) (Or.inr ⟨_, _, rfl, rfl⟩)
    refine ⟨'/' :: '-' :: (b ++ '{' :: (D' ++ ['}'])), .keep (.keep (Spc.front (.keep (hsp.app (Spc.refl _))) b)), fun w y hw hsw => ?_⟩
    have := Doc.skip (T := []) (hsw.over (by simp) (by decide)) hw (hb.swap (by simp) (by intro q e; cases e)) (hch ([] ++ y)) .skipNil
    simpa using this
  | @blocksCons b D w T cs hb hD hw hne hT ih ihT =>
    intro hn
    obtain ⟨D', hsp, _, hD'⟩ := ih [] (noDouble hn (p := '/' :: '-' :: (b ++ ['{'])) (q := '}' :: (w ++ T)) (by simp)) ⟨['}'], Or.inr ⟨_, _, rfl, rfl⟩⟩
    obtain ⟨T', hspT, hT'⟩ := ihT (noDouble hn (p := '/' :: '-' :: (b ++ '{' :: (D ++ '}' :: w))) (q := []) (by simp))
    have hch := children_doc fun y => hD' ('}' :: y) (Or.inr ⟨_, _, rfl, rfl⟩)
    obtain ⟨q, rfl⟩ := blocks_head hT rfl
    refine ⟨'/' :: '-' :: (b ++ '{' :: (D' ++ '}' :: (w ++ T'))),
      .keep (.keep (Spc.front (.keep (hsp.app (.keep (hspT.front w)))) b)), fun u y hu hsu => ?_⟩
    have := Doc.skip (T := w ++ T') (hsu.over (by simp) (by decide)) hu (hb.swap (by simp) (by intro q e; cases e)) (hch (w ++ T' ++ y))
      (hT' w y hne (hw.over (by simp) (by decide)))
    simpa using this
  | leadNil =>
    intro _ ds X r' _ hX _
    exact ⟨[], .nil, Or.inl ⟨rfl, rfl⟩, hX⟩
  | @leadSpace r w L hw hL ih =>
    intro hn ds X r0 hr hX hr0
    obtain ⟨L', hsp, hhd, hL'⟩ := ih (noDouble hn (p := w) (q := []) (by simp)) ds X r0 hr hX hr0
    refine ⟨w ++ L', hsp.front w, ?_, fun r' hr' => ?_⟩
    · cases w with
      | nil => exact hhd
      | cons c w =>
        refine Or.inr ⟨c, _, _, rfl, rfl, fun e y hy => ?_⟩
        subst e
        cases w with
        | nil => exact absurd rfl (lead_begins (Text.leadSpace (r := L ++ r) (L := []) hw .leadNil) rfl).2
        | cons a w =>
          obtain ⟨rfl, _⟩ := List.cons.inj hy
          exact ⟨_, rfl⟩
    · have hsim : SameEnd r (X ++ r') := by
        rcases hr with ⟨rfl, rfl⟩ | ⟨T, rfl, _, hT⟩
        · exact same_closes hr'
        · exact hT.same (same_closes hr')
      have := (hL' r' hr').space (w := w) (by
        rw [List.append_assoc]
        exact (hhd.same hsim).lspace hw)
      simpa using this
  | @leadNode k r b B L d hb hB hs hL ihB ihL =>
    intro hn ds X r0 hr hX hr0
    obtain ⟨B', hspB, _, hB'⟩ := ihB (noDouble hn (p := '/' :: '-' :: b) (q := L) (by simp))
    obtain ⟨L', hsp, hhd, hL'⟩ := ihL (noDouble hn (p := '/' :: '-' :: (b ++ B)) (q := []) (by simp)) ds X r0 hr hX hr0
    have hpl := lead_begins hL rfl
    have hsim (r' : Str) (hr' : Closes r0 r') : SameEnd (L ++ r) (L' ++ (X ++ r')) := by
      refine hhd.same ?_
      rcases hr with ⟨rfl, rfl⟩ | ⟨T, rfl, _, hT⟩
      · exact same_closes hr'
      · exact hT.same (same_closes hr')
    have hsd (p : Str) (h : SameEnd (L ++ r) p) : Doc false (.base true d) p ('/' :: '-' :: (b ++ B')) := (hB' p h).2 b hb
    rcases hs with hs | ⟨_, hs⟩
    · by_cases hnil : L' ++ X = []
      · refine ⟨'/' :: '-' :: (b ++ (B' ++ L')), .keep (.keep ((hspB.app hsp).front b)), ?_, fun r' hr' => ?_⟩
        · exact Or.inr ⟨_, _, _, rfl, rfl, fun _ y e => absurd (List.cons.inj e).1 (by decide)⟩
        · have hds := (hL' r' hr').ofNil hnil
          obtain ⟨rfl, rfl⟩ := List.append_eq_nil_iff.mp hnil
          have := All.last (hsd r' (hsim r' hr'))
          rw [hds]
          simpa [shown] using this
      · refine ⟨'/' :: '-' :: (b ++ (B' ++ L')), .keep (.keep ((hspB.app hsp).front b)), ?_, fun r' hr' => ?_⟩
        · exact Or.inr ⟨_, _, _, rfl, rfl, fun _ y e => absurd (List.cons.inj e).1 (by decide)⟩
        · have hcut : ∃ c q, L' ++ X = c :: q ∧ (Newline c ∨ (c = '/' ∧ ∃ y, q = '/' :: y)) := by
            have hL0 : L ≠ [] := by
              rintro rfl
              have hL'0 : L' = [] := by
                rcases hhd with ⟨_, h⟩ | ⟨_, _, _, h, _⟩
                · exact h
                · cases h
              subst hL'0
              rcases hr with ⟨rfl, rfl⟩ | ⟨T, rfl, hT, _⟩
              · exact hnil rfl
              · obtain ⟨c, q, rfl, hc⟩ := hT
                rcases hs with hs | ⟨_, _, e, hs⟩
                · cases hs
                · obtain ⟨rfl, _⟩ := List.cons.inj e
                  rcases hs with h | h | h | ⟨h, _⟩
                  · exact hc.facts.2.2.2.2.1 h
                  · exact hc.facts.2.2.2.2.2.2.1 h
                  · exact hc.notNewline h
                  · exact hc.facts.2.1 h
            rcases hhd with ⟨h, _⟩ | ⟨c, q, q', rfl, rfl, h⟩
            · exact absurd h hL0
            · refine ⟨c, q' ++ X, rfl, ?_⟩
              rcases hs with hs | ⟨_, _, e, hs⟩
              · cases hs
              · obtain ⟨rfl, e⟩ := List.cons.inj e
                rcases hs with rfl | rfl | hs | ⟨rfl, y, rfl⟩
                · exact absurd rfl (hpl.1 _).1
                · exact absurd rfl (hpl.1 _).2
                · exact Or.inl hs
                · cases q with
                  | nil => exact absurd rfl hpl.2
                  | cons a q =>
                    obtain ⟨rfl, _⟩ := List.cons.inj (List.cons.inj e).2
                    obtain ⟨y', rfl⟩ := h rfl _ rfl
                    exact Or.inr ⟨rfl, _, rfl⟩
          obtain ⟨c, q, e, hc⟩ := hcut
          obtain ⟨m, X', e', hm, hm', hX'⟩ := (hL' r' hr').cut e hc
          have hsm := hsim r' hr'
          rw [← List.append_assoc, e', List.append_assoc] at hsm
          have := hX'.node (w := []) (m := m) (hsd _ hsm) .nil hm (fun _ => hm')
          rw [List.nil_append, ← e'] at this
          simpa [shown] using this
    · refine ⟨'/' :: '-' :: (b ++ (B' ++ ' ' :: '\n' :: L')), .keep (.keep ((hspB.app hsp.line.blank).front b)), ?_, fun r' hr' => ?_⟩
      · exact Or.inr ⟨_, _, _, rfl, rfl, fun _ y e => absurd (List.cons.inj e).1 (by decide)⟩
      · have hZ : L ++ r ≠ [] := by
          rcases hs with ⟨c, q, e, _⟩ | ⟨q, e⟩ <;> rw [e] <;> simp
        have := put_line (hL' r' hr') hZ hsd
        simpa [shown] using this
  | @last k r B d hB ih =>
    intro hn _
    obtain ⟨B', hsp, hhd, hB'⟩ := ih hn
    refine ⟨B', hsp, hhd, fun r' hr' => ?_⟩
    have := All.last (hB' r' (same_closes hr')).1
    exact this
  | @lastTerm k r B m L d hB hm hL ihB ihL =>
    intro hn hr
    obtain ⟨B', hspB, hhdB, hB'⟩ := ihB (noDouble hn (p := []) (q := m ++ L) (by simp))
    obtain ⟨L', hsp, hhd, hL'⟩ := ihL (noDouble hn (p := B ++ m) (q := []) (by simp)) [] [] r (Or.inl ⟨rfl, rfl⟩) (fun r' _ => .nil r') hr
    refine ⟨B' ++ (m ++ L'), hspB.app (hsp.front m), hhdB.more (node_starts hB) _ _, fun r' hr' => ?_⟩
    have hA := hL' r' hr'
    rw [List.append_nil] at hA
    have hs := hhd.same (same_closes hr')
    have := hA.node (w := []) (m := m) (hB' _ ((Hd.refl m).same hs)).1 .nil (hs.term hm) (by intro e; cases e)
    exact this
  | @lastSlash r q B d hB hL ihB ihL =>
    intro hn hr
    obtain ⟨B', hspB, hhdB, hB'⟩ := ihB (noDouble hn (p := []) (q := '/' :: '-' :: q) (by simp))
    obtain ⟨L', hsp, hhd, hL'⟩ := ihL (noDouble hn (p := B) (q := []) (by simp)) [] [] r (Or.inl ⟨rfl, rfl⟩) (fun r' _ => .nil r') hr
    refine ⟨B' ++ ' ' :: '\n' :: L', hspB.app hsp.line.blank, hhdB.more (node_starts hB) _ _, fun r' hr' => ?_⟩
    have hA := hL' r' hr'
    rw [List.append_nil] at hA
    exact put_line (s := false) hA (by simp) fun p hp => (hB' p hp).1
  | @cons k r B m L T d ds hB hm hL hT ihB ihL ihT =>
    intro hn hr
    obtain ⟨B', hspB, hhdB, hB'⟩ := ihB (noDouble hn (p := []) (q := m ++ (L ++ T)) (by simp))
    obtain ⟨T', hspT, hhdT, hT'⟩ := ihT (noDouble hn (p := B ++ (m ++ L)) (q := []) (by simp)) hr
    obtain ⟨L', hsp, hhd, hL'⟩ := ihL (noDouble hn (p := B ++ m) (q := T) (by simp)) ds T' r
      (Or.inr ⟨T, rfl, items_starts hT, hhdT⟩) hT' hr
    refine ⟨B' ++ (m ++ (L' ++ T')), hspB.app ((hsp.app hspT).front m), hhdB.more (node_starts hB) _ _, fun r' hr' => ?_⟩
    have hs := hhd.same (hhdT.same (same_closes hr'))
    rw [← List.append_assoc L'] at hs
    have := (hL' r' hr').node (w := []) (m := m) (hB' _ ((Hd.refl m).same hs)).1 .nil (hs.term hm) (by intro e; cases e)
    exact this
  | @empty r L hL ih =>
    intro hn hr
    obtain ⟨L', hsp, hhd, hL'⟩ := ih hn [] [] r (Or.inl ⟨rfl, rfl⟩) (fun r' _ => .nil r') hr
    exact ⟨L', hsp, hhd, fun r' hr' => by simpa using hL' r' hr'⟩
  | @items r L T ds hL hT ihL ihT =>
    intro hn hr
    obtain ⟨T', hspT, hhdT, hT'⟩ := ihT (noDouble hn (p := L) (q := []) (by simp)) hr
    obtain ⟨L', hsp, hhd, hL'⟩ := ihL (noDouble hn (p := []) (q := T) (by simp)) ds T' r
      (Or.inr ⟨T, rfl, items_starts hT, hhdT⟩) hT' hr
    refine ⟨L' ++ T', hsp.app hspT, ?_, hL'⟩
    rcases hhd with ⟨rfl, rfl⟩ | ⟨c, q, q', rfl, rfl, h⟩
    · exact hhdT
    · refine Or.inr ⟨c, _, _, rfl, rfl, fun e y hy => ?_⟩
      cases q with
      | nil => exact absurd (by rw [e]) (lead_begins hL rfl).2
      | cons a q =>
        obtain ⟨rfl, _⟩ := List.cons.inj hy
        obtain ⟨y', rfl⟩ := h e _ rfl
        exact ⟨_, rfl⟩

theorem nodes_append {c : DCat} {r' N : Str} (h : Doc false c r' N) {d1 d2 : List (SNode Value)} {r F : Str} (hc : c = .nodes d1)
    (hr : r' = F ++ r) (hF : Doc false (.nodes d2) r F) : Doc false (.nodes (d1 ++ d2)) r (N ++ F) := by
  induction h generalizing d1 with
  | @noNode _ l hl =>
    injection hc with e; subst e hr
    cases hF with
    | noNode hl' => exact .noNode (hl.app hl')
    | @node s _ l' B v m T d ds hl' hB hv hm hs hT =>
      have := Doc.node (l := l ++ l') (LSpace.app (by simpa using hl) hl') hB hv hm hs hT
      simpa using this
  | @node s _ l B v m T d ds hl hB hv hm hs hT _ ih =>
    injection hc with e; subst e hr
    have := Doc.node (by simpa using hl) (by simpa using hB) (by simpa using hv) (by simpa using hm) hs (ih rfl rfl)
    simpa using this
  | _ => cases hc

/-- The nodes of a whole document. -/
theorem All.document {ds : List (SNode Value)} {t : Str} (h : All ds [] t) : Doc false (.nodes ds) [] t := by
  obtain ⟨N, F, d1, d2, rfl, rfl, hN, hF⟩ := h
  refine nodes_append hN rfl rfl ?_
  generalize e : DCat.final d2 = c at hF
  generalize er : ([] : Str) = r at hF
  cases hF with
  | noFinal => injection e with e; subst e er; exact .noNode .nil
  | @final s r B w m d hB hw hm hs =>
    injection e with e; subst e er
    have := Doc.node (l := []) (T := []) .nil hB hw (hm.elim (fun h => Or.inr (Or.inr (Or.inr ⟨h, rfl⟩))) id) hs (.noNode .nil)
    simpa using this
  | _ => cases e

end

end Kdl
