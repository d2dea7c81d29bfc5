import Verif.Lemmas.Lsp
import Verif.Lemmas.V1Back
import Verif.Props.Recover
import Verif.Props.V1
/-
The language server: C72 and C73.
-/

namespace Kdl
open Spec Lsp

/-! ### C72 -/

theorem Sets.unique {uri : Str} {e : Notification} {t t' : Option Str} (h : Sets uri e t) (h' : Sets uri e t') : t = t' := by
  cases h with
  | opened => cases h'; rfl
  | changed ts t =>
    have key : ∀ {n : Notification} {t' : Option Str}, Sets uri n t' → n = .didChange uri (ts ++ [t]) → some t = t' := by
      intro n t' h e
      cases h with
      | opened => cases e
      | changed ts' t'' =>
        have := (List.append_inj' (Notification.didChange.inj e).2 rfl).2
        cases this
        rfl
      | saved => cases e
      | closed => cases e
    exact key h' rfl
  | saved => cases h'; rfl
  | closed => cases h'; rfl

/-- Induction over the last element of a list. -/
theorem list_snoc {α : Type} {motive : List α → Prop} (nil : motive []) (snoc : ∀ es e, motive es → motive (es ++ [e])) (es : List α) : motive es := by
  have key : ∀ l : List α, motive l.reverse := by
    intro l
    induction l with
    | nil => exact nil
    | cons a l ih =>
      rw [List.reverse_cons]
      exact snoc _ _ ih
  have := key es.reverse
  rwa [List.reverse_reverse] at this

/-- After every history, every document has exactly one current text, or is not open. -/
theorem Current.exists_unique (uri : Str) (es : List Notification) : ∃ t, Current uri es t ∧ ∀ t', Current uri es t' → t' = t := by
  induction es using list_snoc with
  | nil =>
    refine ⟨none, .never (by simp), ?_⟩
    intro t' h
    have key : ∀ {l : List Notification} {t' : Option Str}, Current uri l t' → l = [] → t' = none := by
      intro l t' h e
      cases h with
      | never => rfl
      | last => simp at e
    exact key h rfl
  | snoc es e ih =>
    obtain ⟨t, h1, h2⟩ := ih
    by_cases hs : ∃ t', Sets uri e t'
    · obtain ⟨t', hs⟩ := hs
      refine ⟨t', .last hs (es' := []) (by simp), ?_⟩
      have key : ∀ {l : List Notification} {u : Option Str}, Current uri l u → l = es ++ [e] → u = t' := by
        intro l u h eq
        cases h with
        | never h =>
          subst eq
          exact absurd hs (h e (by simp) t')
        | @last a b x v hx hb =>
          rcases List.eq_nil_or_concat b with rfl | ⟨b', y, rfl⟩
          · have := List.append_inj' eq rfl
            cases this.2
            exact Sets.unique hx hs
          · have eq' : (a ++ x :: b') ++ [y] = es ++ [e] := by simpa using eq
            have := List.append_inj' eq' rfl
            cases this.2
            exact absurd hs (hb e (by simp) t')
      exact fun u hu => key hu rfl
    · refine ⟨t, ?_, ?_⟩
      · cases h1 with
        | never h =>
          refine .never ?_
          intro x hx t' ht
          rcases List.mem_append.mp hx with hx | hx
          · exact h x hx t' ht
          · rcases List.mem_singleton.mp hx with rfl
            exact hs ⟨t', ht⟩
        | @last a b x v hx hb =>
          have := Current.last (es := a) (es' := b ++ [e]) hx (by
            intro y hy t' ht
            rcases List.mem_append.mp hy with hy | hy
            · exact hb y hy t' ht
            · rcases List.mem_singleton.mp hy with rfl
              exact hs ⟨t', ht⟩)
          simpa using this
      · have key : ∀ {l : List Notification} {u : Option Str}, Current uri l u → l = es ++ [e] → u = t := by
          intro l u h eq
          cases h with
          | never h =>
            subst eq
            exact h2 _ (.never fun x hx => h x (by simp [hx]))
          | @last a b x v hx hb =>
            rcases List.eq_nil_or_concat b with rfl | ⟨b', y, rfl⟩
            · have := List.append_inj' eq rfl
              cases this.2
              exact absurd ⟨_, hx⟩ hs
            · have eq' : (a ++ x :: b') ++ [y] = es ++ [e] := by simpa using eq
              have := (List.append_inj' eq' rfl).1
              subst this
              exact h2 _ (.last hx fun z hz => hb z (by simp [hz]))
        exact fun u hu => key hu rfl

theorem run_append (m : Docs) (es : List Notification) (e : Notification) : Lsp.run m (es ++ [e]) = (Lsp.run m es).bind fun m => handle m e := by
  induction es generalizing m with
  | nil =>
    simp only [List.nil_append, Lsp.run, Option.bind]
    cases handle m e <;> rfl
  | cons x es ih =>
    simp only [List.cons_append, Lsp.run]
    cases handle m x with
    | none => rfl
    | some m' => exact ih m'

/-- **C72**, the texts, partial. Full statement: after any notifications, the server has the
current text of every document. Missing: changes with several texts or none, see
`C72_violated`. -/
theorem C72_texts_partial {es : List Notification} (h : SingleChanges es) :
    ∃ m, Lsp.run Lsp.start es = some m ∧ ∀ uri t, Current uri es t → m uri = t := by
  induction es using list_snoc with
  | nil =>
    refine ⟨_, rfl, fun uri t ht => ?_⟩
    obtain ⟨t0, _, h2⟩ := Current.exists_unique uri []
    rw [h2 t ht, ← h2 none (.never (by simp))]
    rfl
  | snoc es e ih =>
    obtain ⟨m, h1, h2⟩ := ih fun uri ts hu => h uri ts (by simp [hu])
    have hsing : ∀ uri ts, e = .didChange uri ts → ∃ t, ts = [t] := fun uri ts he => h uri ts (by simp [he])
    -- what one notification does
    have step : ∃ m', handle m e = some m' ∧ ∀ uri, (∀ t, Sets uri e t → m' uri = t) ∧ ((∀ t, ¬ Sets uri e t) → m' uri = m uri) := by
      cases e with
      | didOpen u t =>
        refine ⟨_, rfl, fun uri => ⟨?_, ?_⟩⟩
        · rintro _ ⟨⟩
          simp [Docs.insert]
        · intro hn
          have : uri ≠ u := by rintro rfl; exact hn _ (.opened t)
          simp [Docs.insert, this]
      | didChange u ts =>
        obtain ⟨t, rfl⟩ := hsing u ts rfl
        refine ⟨_, rfl, fun uri => ⟨?_, ?_⟩⟩
        · intro t' ht'
          have hu : uri = u := by
            have key : ∀ {n : Notification} {t'' : Option Str}, Sets uri n t'' → n = .didChange u [t] → uri = u := by
              intro n t'' h e
              cases h with
              | changed => exact (Notification.didChange.inj e).1
              | _ => cases e
            exact key ht' rfl
          subst hu
          rw [Sets.unique ht' (.changed [] t)]
          simp [Docs.insert]
        · intro hn
          have : uri ≠ u := by rintro rfl; exact hn _ (.changed [] t)
          simp [Docs.insert, this]
      | didSave u t =>
        cases t with
        | none => exact ⟨_, rfl, fun uri => ⟨by rintro _ ⟨⟩, fun _ => rfl⟩⟩
        | some t =>
          refine ⟨_, rfl, fun uri => ⟨?_, ?_⟩⟩
          · rintro _ ⟨⟩
            simp [Docs.insert]
          · intro hn
            have : uri ≠ u := by rintro rfl; exact hn _ (.saved t)
            simp [Docs.insert, this]
      | didClose u =>
        refine ⟨_, rfl, fun uri => ⟨?_, ?_⟩⟩
        · rintro _ ⟨⟩
          simp [Docs.remove]
        · intro hn
          have : uri ≠ u := by rintro rfl; exact hn _ .closed
          simp [Docs.remove, this]
    obtain ⟨m', h3, h4⟩ := step
    refine ⟨m', by rw [run_append, h1]; exact h3, fun uri t ht => ?_⟩
    obtain ⟨t0, _, huniq⟩ := Current.exists_unique uri (es ++ [e])
    by_cases hs : ∃ t', Sets uri e t'
    · obtain ⟨t', hs⟩ := hs
      rw [huniq t ht, ← huniq t' (.last hs (es' := []) (by simp))]
      exact (h4 uri).1 t' hs
    · obtain ⟨t1, h5, _⟩ := Current.exists_unique uri es
      have h6 : Current uri (es ++ [e]) t1 := by
        cases h5 with
        | never h =>
          refine .never ?_
          intro x hx t' hxt
          rcases List.mem_append.mp hx with hx | hx
          · exact h x hx t' hxt
          · rcases List.mem_singleton.mp hx with rfl
            exact hs ⟨t', hxt⟩
        | @last a b x v hx hb =>
          have := Current.last (es := a) (es' := b ++ [e]) hx (by
            intro y hy t' hyt
            rcases List.mem_append.mp hy with hy | hy
            · exact hb y hy t' hyt
            · rcases List.mem_singleton.mp hy with rfl
              exact hs ⟨t', hyt⟩)
          simpa using this
      rw [huniq t ht, ← huniq t1 h6, (h4 uri).2 fun t' ht' => hs ⟨t', ht'⟩]
      exact h2 uri t1 h5

/-- What the server makes of a notification about the document: as `Sets`, but of several
changes the first one counts. -/
inductive Takes (uri : Str) : Notification → Option Str → Prop
  | opened (t : Str) : Takes uri (.didOpen uri t) (some t)
  | changed (t : Str) (ts : List Str) : Takes uri (.didChange uri (t :: ts)) (some t)
  | saved (t : Str) : Takes uri (.didSave uri (some t)) (some t)
  | closed : Takes uri (.didClose uri) none

theorem handle_takes {m m' : Docs} {e : Notification} (h : handle m e = some m') (uri : Str) :
    (∃ t, Takes uri e t ∧ m' uri = t ∧ ∃ t', Sets uri e t') ∨ (m' uri = m uri ∧ ∀ t, ¬ Sets uri e t) := by
  cases e with
  | didOpen u t =>
    cases h
    by_cases hu : uri = u
    · subst hu; exact Or.inl ⟨_, .opened t, by simp [Docs.insert], _, .opened t⟩
    · exact Or.inr ⟨by simp [Docs.insert, hu], by rintro t' h; cases h; exact hu rfl⟩
  | didChange u ts =>
    cases ts with
    | nil => cases h
    | cons t ts =>
      cases h
      by_cases hu : uri = u
      · subst hu
        obtain ⟨l, x, hl⟩ : ∃ l x, t :: ts = l ++ [x] := by
          rcases List.eq_nil_or_concat (t :: ts) with h | ⟨l, x, h⟩
          · cases h
          · exact ⟨l, x, by rw [h, List.concat_eq_append]⟩
        exact Or.inl ⟨_, .changed t ts, by simp [Docs.insert], _, by rw [hl]; exact .changed l x⟩
      · refine Or.inr ⟨by simp [Docs.insert, hu], ?_⟩
        have key : ∀ {n : Notification} {t' : Option Str}, Sets uri n t' → n ≠ .didChange u (t :: ts) := by
          intro n t' h e
          cases h with
          | changed => exact hu (Notification.didChange.inj e).1
          | _ => cases e
        exact fun t' h => key h rfl
  | didSave u o =>
    cases o with
    | none => cases h; exact Or.inr ⟨rfl, by rintro t' h; cases h⟩
    | some t =>
      cases h
      by_cases hu : uri = u
      · subst hu; exact Or.inl ⟨_, .saved t, by simp [Docs.insert], _, .saved t⟩
      · exact Or.inr ⟨by simp [Docs.insert, hu], by rintro t' h; cases h; exact hu rfl⟩
  | didClose u =>
    cases h
    by_cases hu : uri = u
    · subst hu; exact Or.inl ⟨_, .closed, by simp [Docs.remove], _, .closed⟩
    · exact Or.inr ⟨by simp [Docs.remove, hu], by rintro t' h; cases h; exact hu rfl⟩

theorem run_none {es : List Notification} {m : Docs} : Lsp.run m es = none ↔ ∃ uri, Notification.didChange uri [] ∈ es := by
  induction es generalizing m with
  | nil => simp [Lsp.run]
  | cons e es ih =>
    rw [Lsp.run]
    cases h : handle m e with
    | none =>
      refine iff_of_true rfl ?_
      cases e with
      | didChange u ts =>
        cases ts with
        | nil => exact ⟨u, by simp⟩
        | cons t ts => cases h
      | didSave u o => cases o <;> cases h
      | _ => cases h
    | some m' =>
      simp only [ih, List.mem_cons]
      constructor
      · rintro ⟨u, hu⟩; exact ⟨u, Or.inr hu⟩
      · rintro ⟨u, rfl | hu⟩
        · cases h
        · exact ⟨u, hu⟩

theorem run_unset {es : List Notification} {m m' : Docs} {uri : Str} (h : Lsp.run m es = some m')
    (hs : ∀ e ∈ es, ∀ t, ¬ Sets uri e t) : m' uri = m uri := by
  induction es generalizing m with
  | nil => cases h; rfl
  | cons e es ih =>
    rw [Lsp.run] at h
    cases h1 : handle m e with
    | none => rw [h1] at h; cases h
    | some m1 =>
      rw [h1] at h
      rw [ih h fun e he => hs e (by simp [he])]
      rcases handle_takes h1 uri with ⟨_, _, _, t', ht'⟩ | h2
      · exact absurd ht' (hs e (by simp) t')
      · exact h2.1

theorem run_last {es es' : List Notification} {e : Notification} {m m' : Docs} {uri : Str} {t : Option Str}
    (h : Lsp.run m (es ++ e :: es') = some m') (he : Sets uri e t)
    (hs : ∀ e ∈ es', ∀ t, ¬ Sets uri e t) : ∃ t', Takes uri e t' ∧ m' uri = t' := by
  induction es generalizing m with
  | nil =>
    rw [List.nil_append, Lsp.run] at h
    cases h1 : handle m e with
    | none => rw [h1] at h; cases h
    | some m1 =>
      rw [h1] at h
      rcases handle_takes h1 uri with ⟨t', ht', e1, _⟩ | h2
      · exact ⟨t', ht', by rw [run_unset h hs, e1]⟩
      · exact absurd he (h2.2 t)
  | cons e0 es ih =>
    rw [List.cons_append, Lsp.run] at h
    cases h1 : handle m e0 with
    | none => rw [h1] at h; cases h
    | some m1 => rw [h1] at h; exact ih h

theorem run_current {es : List Notification} {m : Docs} {uri : Str} {t : Option Str} (h : Lsp.run Lsp.start es = some m)
    (h2 : ∀ es1 es2 ts, es = es1 ++ .didChange uri ts :: es2 → (∀ e ∈ es2, ∀ t, ¬ Sets uri e t) → ts.head? = ts.getLast?)
    (ht : Current uri es t) : m uri = t := by
  have key : ∀ {es0 : List Notification}, Current uri es0 t → es0 = es → m uri = t := by
    intro es0 ht e0
    cases ht with
    | never hn => subst e0; rw [run_unset h hn]; rfl
    | last he hs =>
      subst e0
      obtain ⟨t', g2, g3⟩ := run_last h he hs
      rw [g3]
      cases g2 with
      | opened => cases he; rfl
      | changed t0 ts =>
        have h3 := h2 _ _ _ rfl hs
        have key2 : ∀ {n : Notification} {t : Option Str}, Sets uri n t → n = .didChange uri (t0 :: ts) → (t0 :: ts).getLast? = t := by
          intro n t h e
          cases h with
          | changed => rw [← (Notification.didChange.inj e).2]; simp
          | _ => cases e
        rw [← key2 he rfl, ← h3]; rfl
      | saved => cases he; rfl
      | closed => cases he; rfl
  exact key ht rfl

/-- **C72**, the texts, exactly: the server does not panic and has the current text of every
document if and only if no change notification is empty, and whenever the last
notification that set the text of some document was a change, its first and its last text are
the same. -/
theorem C72_texts_exact (es : List Notification) :
    (∃ m, Lsp.run Lsp.start es = some m ∧ ∀ uri t, Current uri es t → m uri = t) ↔
      (∀ uri, Notification.didChange uri [] ∉ es) ∧
      ∀ uri es1 es2 ts, es = es1 ++ .didChange uri ts :: es2 → (∀ e ∈ es2, ∀ t, ¬ Sets uri e t) → ts.head? = ts.getLast? := by
  constructor
  · rintro ⟨m, h1, h2⟩
    refine ⟨fun uri hu => ?_, fun uri es1 es2 ts he hs => ?_⟩
    · rw [run_none.mpr ⟨uri, hu⟩] at h1; cases h1
    · rcases List.eq_nil_or_concat ts with rfl | ⟨l, x, rfl⟩
      · rfl
      · rw [List.concat_eq_append] at he ⊢
        subst he
        have g1 := h2 uri _ (.last (.changed l x) hs)
        obtain ⟨t', g2, g3⟩ := run_last h1 (.changed l x) hs
        rw [g1] at g3
        subst g3
        have key : ∀ {n : Notification} {t : Option Str}, Takes uri n t → n = .didChange uri (l ++ [x]) → (l ++ [x]).head? = t := by
          intro n t h e
          cases h with
          | changed => rw [← (Notification.didChange.inj e).2]; rfl
          | _ => cases e
        rw [key g2 rfl]; simp
  · rintro ⟨h1, h2⟩
    cases h : Lsp.run Lsp.start es with
    | none =>
      obtain ⟨u, hu⟩ := run_none.mp h
      exact absurd hu (h1 u)
    | some m => exact ⟨m, rfl, fun uri t ht => run_current h (h2 uri) ht⟩

/-- A history with an outdated change of two texts, put right by a later one. -/
example : ∃ m, Lsp.run Lsp.start [.didOpen "f".toList "a".toList, .didChange "f".toList ["b".toList, "c".toList],
    .didChange "f".toList ["d".toList]] = some m ∧ m "f".toList = some "d".toList :=
  ⟨_, rfl, by simp [Docs.insert]⟩

section
variable [V1Lib] [V1Errors] [FloatIO]

/-- **C72**, the reports, partial: after any notifications without an empty change notification,
the server does not panic, and it reports on every document. If the last notification that set the
text of this document was not a change with a first text other than its last one, then the
report is empty if the document is not open, and otherwise exactly if its current text is
accepted by `KdlDocument::parse` (with fallback); for a text that is rejected and does not look like v1 it
has one item for each diagnostic of the v2 parser, in order, and for one that looks like v1
one item. What is missing are the histories that `C72_texts_exact` shows to leave the server with another text. -/
theorem C72_report_partial (o : Recovery) {es : List Notification} (h : ∀ uri, Notification.didChange uri [] ∉ es) (uri : Str)
    (hu : ∀ es1 es2 ts, es = es1 ++ .didChange uri ts :: es2 → (∀ e ∈ es2, ∀ t, ¬ Sets uri e t) → ts.head? = ts.getLast?) :
    ∃ m items, Lsp.run Lsp.start es = some m ∧ Lsp.diagnostic o m uri = some items ∧
    (Current uri es none → items = []) ∧
    ∀ s, Current uri es (some s) →
      (items = [] ↔ ∃ d, Document.parseFallback s = .ok d) ∧
      (∀ ds, Document.parseR o s = .err ds → V1Lib.parseDocument s = none →
        (LooksV1 s → items.length = 1) ∧
        (¬ LooksV1 s → items = ds.map fun d => ⟨byteToPosition d.offset s, byteToPosition (d.offset + d.len) s, .error⟩)) := by
  obtain ⟨m, h1⟩ : ∃ m, Lsp.run Lsp.start es = some m := by
    cases h1 : Lsp.run Lsp.start es with
    | none => obtain ⟨u, hn⟩ := run_none.mp h1; exact absurd hn (h u)
    | some m => exact ⟨m, rfl⟩
  have h2 : ∀ t, Current uri es t → m uri = t := fun t ht => run_current h1 hu ht
  have hspans : ∀ s, ∃ r, parseSpans o s = some r := by
    intro s
    rcases (C06_recovering o s).1 with ⟨d, hd⟩ | ⟨ds, hd⟩
    · exact ⟨_, by simp only [parseSpans, hd]; rfl⟩
    · cases hv : Document.parseV1 s with
      | some x => exact ⟨_, by simp only [parseSpans, hd, hv]; rfl⟩
      | none => exact ⟨_, by simp only [parseSpans, hd, hv]; rfl⟩
  have hsome : ∃ items, Lsp.diagnostic o m uri = some items := by
    unfold Lsp.diagnostic
    cases hm : m uri with
    | none => exact ⟨_, rfl⟩
    | some s =>
      obtain ⟨r, hr⟩ := hspans s
      simp only [hr]
      cases r <;> exact ⟨_, rfl⟩
  obtain ⟨items, hi⟩ := hsome
  refine ⟨m, items, h1, hi, fun hc => ?_, fun s hc => ?_⟩
  · have hm := h2 none hc
    rw [Lsp.diagnostic, hm] at hi
    cases hi
    rfl
  · have hm := h2 _ hc
    simp only [Lsp.diagnostic, hm] at hi
    have hok := (C39_ok_iff o s).1
    have hv1 : ∀ s, Document.parseV1 s = none ↔ V1Lib.parseDocument s = none := fun s => by
      rw [Document.parseV1, Option.map_eq_none_iff]
    rcases (C06_recovering o s).1 with ⟨d, hd⟩ | ⟨ds, hd⟩
    · simp only [parseSpans, hd] at hi
      cases hi
      refine ⟨⟨fun _ => ⟨d, (C69_document s).1 d ((hok d).mp hd)⟩, fun _ => rfl⟩, fun ds hds => ?_⟩
      rw [hd] at hds
      cases hds
    · have herr : Document.parse s = .err := by
        rcases (C06_ok_or_err s).1 with ⟨d, h⟩ | h
        · rw [(hok d).mpr h] at hd
          cases hd
        · exact h
      have hne := (C39_err_has_diagnostic o s ds).1 hd
      cases hv : Document.parseV1 s with
      | some x =>
        simp only [parseSpans, hd, hv] at hi
        cases hi
        have hx : ∃ y, V1Lib.parseDocument s = some y := by
          cases hy : V1Lib.parseDocument s with
          | none => rw [(hv1 s).mpr hy] at hv; cases hv
          | some y => exact ⟨y, rfl⟩
        obtain ⟨y, hy⟩ := hx
        obtain ⟨d, h3, _⟩ := (C69_document s).2.1 y herr hy
        exact ⟨⟨fun _ => ⟨d, h3⟩, fun _ => rfl⟩, fun ds' _ hn => by rw [hy] at hn; cases hn⟩
      | none =>
        have hy := (hv1 s).mp hv
        simp only [parseSpans, hd, hv] at hi
        have hitems := (Option.some.inj hi).symm
        have hrej := (C69_document s).2.2.2.1.mpr ⟨herr, hy⟩
        refine ⟨⟨fun he => ?_, fun ⟨d, h⟩ => absurd h (hrej d)⟩, fun ds' hds' _ => ?_⟩
        · exfalso
          rw [hitems] at he
          have he := List.map_eq_nil_iff.mp he
          split at he
          · cases he
          · exact hne he
        · rw [hd] at hds'
          cases hds'
          refine ⟨fun hl => ?_, fun hl => ?_⟩
          · rw [hitems, if_pos (detectV1_iff.mpr hl)]
            rfl
          · rw [hitems, if_neg fun h => hl (detectV1_iff.mp h)]

/-- The hypotheses of `C72_report_partial` hold for all documents if every change notification has a single text. -/
theorem C72_single {es : List Notification} (h : SingleChanges es) :
    (∀ uri, Notification.didChange uri [] ∉ es) ∧
    ∀ uri es1 es2 ts, es = es1 ++ .didChange uri ts :: es2 → (∀ e ∈ es2, ∀ t, ¬ Sets uri e t) → ts.head? = ts.getLast? := by
  refine ⟨fun uri hn => ?_, fun uri es1 es2 ts he _ => ?_⟩
  · obtain ⟨t, ht⟩ := h uri [] hn
    cases ht
  · obtain ⟨t, rfl⟩ := h uri ts (by simp [he])
    rfl

end

/-- A history that meets the hypothesis: open, change, save without a text, save with one; another
document is opened and closed. -/
theorem C72_example :
    SingleChanges [.didOpen "f".toList "a".toList, .didOpen "g".toList "b".toList, .didChange "f".toList ["c 1".toList], .didSave "f".toList none,
      .didClose "g".toList] ∧
    Current "f".toList [.didOpen "f".toList "a".toList, .didOpen "g".toList "b".toList, .didChange "f".toList ["c 1".toList],
      .didSave "f".toList none, .didClose "g".toList] (some "c 1".toList) := by
  refine ⟨?_, ?_⟩
  · intro uri ts h
    simp only [List.mem_cons, List.not_mem_nil, or_false, reduceCtorEq, false_or, Notification.didChange.injEq] at h
    exact ⟨_, h.2⟩
  · refine .last (es := [_, _]) (.changed [] _) ?_
    intro e he t ht
    simp only [List.mem_cons, List.not_mem_nil, or_false] at he
    rcases he with rfl | rfl
    · cases ht
    · have key : ∀ {n : Notification} {t : Option Str}, Sets "f".toList n t → n ≠ .didClose "g".toList := by
        intro n t h e
        cases h with
        | closed => exact absurd (Notification.didClose.inj e) (by decide)
        | _ => cases e
      exact key ht rfl

/-- **C72 violated**: of several changes in one notification the first one is kept, so the server
goes on with an old text; a notification without changes makes it panic. -/
theorem C72_violated :
    (Current "f".toList [.didOpen "f".toList "a".toList, .didChange "f".toList ["b".toList, "c".toList]] (some "c".toList) ∧
      ∃ m, Lsp.run Lsp.start [.didOpen "f".toList "a".toList, .didChange "f".toList ["b".toList, "c".toList]] = some m ∧
        m "f".toList = some "b".toList) ∧
    Lsp.run Lsp.start [.didOpen "f".toList "a".toList, .didChange "f".toList []] = none := by
  refine ⟨⟨.last (es := [_]) (.changed ["b".toList] _) (by simp), _, rfl, by simp [Docs.insert]⟩, rfl⟩

/-! ### C73 -/

/-- A place in a text has one LSP position. -/
theorem C73_unique {p q : Str} {x y : Position} (hx : LspPlace p q x) (hy : LspPlace p q y) : x = y := by
  have h1 := place_of lspEnds_ends (Or.inl rfl) hx
  have h2 := place_of lspEnds_ends (Or.inl rfl) hy
  rw [h1] at h2
  cases x; cases y; cases h2
  rfl

/-- **C73**, exactly, for all texts of less than 4 GiB: the server gives a place in a text its LSP
position if and only if no vertical tab, form feed, next line, line separator or
paragraph separator is in front of it. -/
theorem C73_exact {p q : Str} (h : utf8Len p < 2 ^ 32) :
    LspPlace p q (byteToPosition (utf8Len p) (p ++ q)) ↔ ∀ c ∈ p, ¬ OtherBreak c := by
  rw [byteToPosition_small h]
  obtain ⟨_, h2, h3⟩ := place_other p q
  constructor
  · intro hp
    have := place_of lspEnds_ends (Or.inl rfl) hp
    exact h2.mp (by rw [this])
  · intro hn
    rw [LspPlace, h3 hn]
    exact placeIn_place lspEnds_ends (Or.inl rfl) (Or.inr rfl) _ p q (Nat.le_refl _)

/-- With these characters counted as line ends, without exception: lines and UTF-16 code
units are counted correctly. -/
theorem C73_unicode {p q : Str} (h : utf8Len p < 2 ^ 32) :
    PlaceIn (fun c => LspBreak c ∨ OtherBreak c) p q (byteToPosition (utf8Len p) (p ++ q)).line (byteToPosition (utf8Len p) (p ++ q)).character := by
  rw [byteToPosition_small h]
  exact placeIn_place endsLine_ends (Or.inl (Or.inl rfl)) (Or.inl (Or.inr rfl)) _ p q (Nat.le_refl _)

/-- **C73**, order: a later place has a later position. In particular different places have
different positions. -/
theorem C73_order {p t q : Str} (h : utf8Len (p ++ t) < 2 ^ 32) (ht : t ≠ []) :
    Earlier (byteToPosition (utf8Len p) (p ++ t ++ q)) (byteToPosition (utf8Len (p ++ t)) (p ++ t ++ q)) := by
  have h1 : utf8Len p < 2 ^ 32 := by
    simp only [utf8Len, List.map_append, List.sum_append] at h ⊢
    omega
  rw [byteToPosition_small h, List.append_assoc, byteToPosition_small h1]
  exact place_lt ht

section
variable [V1Lib] [V1Errors] [FloatIO]

/-- **C73**, reports, exactly: in a report on a text that is rejected and does not look like v1,
each item belongs to a diagnostic of the parser, which selects a text `t`. The item begins at
the LSP position of `t` if and only if none of the five characters of `C73_exact` is in
front of `t`, and it ends at the LSP position of the end of `t` if and only if none of them is
in front of that. -/
theorem C73_report_exact (o : Recovery) {m : Docs} {uri s : Str} {ds : List Span} (hm : m uri = some s) (hp : Document.parseR o s = .err ds)
    (hv : V1Lib.parseDocument s = none) (hl : ¬ LooksV1 s) (hs : utf8Len s < 2 ^ 32) :
    ∃ items, Lsp.diagnostic o m uri = some items ∧ items.length = ds.length ∧ items ≠ [] ∧
    ∀ (i : Nat) (d : Span), ds[i]? = some d → ∃ a t b x, s = a ++ t ++ b ∧ d = ⟨utf8Len a, utf8Len t⟩ ∧ items[i]? = some x ∧
      (LspPlace a (t ++ b) x.start ↔ ∀ c ∈ a, ¬ OtherBreak c) ∧
      (LspPlace (a ++ t) b x.stop ↔ ∀ c ∈ a ++ t, ¬ OtherBreak c) ∧ x.severity = .error := by
  have hv1 : Document.parseV1 s = none := by rw [Document.parseV1, hv]; rfl
  have hd : ¬ detectV1 s = true := fun h => hl (detectV1_iff.mp h)
  refine ⟨ds.map fun d => ⟨byteToPosition d.offset s, byteToPosition (d.offset + d.len) s, .error⟩, ?_, by simp, ?_, ?_⟩
  · simp only [Lsp.diagnostic, hm, parseSpans, hp, hv1, if_neg hd]
  · exact fun h => (C39_err_has_diagnostic o s ds).1 hp (List.map_eq_nil_iff.mp h)
  · intro i d hi
    obtain ⟨t, a, b, rfl, h1, h2⟩ := (C55_diagnostics_in_text o s ds).1 hp d (List.mem_of_getElem? hi)
    obtain ⟨off, len⟩ := d
    simp only at h1 h2
    subst h1 h2
    have e : utf8Len a + utf8Len t = utf8Len (a ++ t) := by simp [utf8Len, List.map_append, List.sum_append]
    have hb : utf8Len (a ++ t) < 2 ^ 32 ∧ utf8Len a < 2 ^ 32 := by
      simp only [utf8Len, List.map_append, List.sum_append] at hs ⊢
      omega
    refine ⟨a, t, b, _, rfl, rfl, by rw [List.getElem?_map, hi]; rfl, ?_, ?_, rfl⟩
    · have := (C73_exact (p := a) (q := t ++ b) hb.2)
      rw [← List.append_assoc] at this
      exact this
    · have := (C73_exact (p := a ++ t) (q := b) hb.1)
      rw [← e] at this
      exact this

end

/-- A place in a text with CR LF, a lone carriage return and a character outside of the basic
plane: line 2, after three code units. -/
theorem C73_example : LspPlace "a\r\nb\r𝄞x".toList "y".toList ⟨2, 3⟩ ∧ byteToPosition 10 "a\r\nb\r𝄞xy".toList = ⟨2, 3⟩ := by
  have h2 : byteToPosition 10 "a\r\nb\r𝄞xy".toList = ⟨2, 3⟩ := by decide
  refine ⟨?_, h2⟩
  have := (C73_exact (p := "a\r\nb\r𝄞x".toList) (q := "y".toList) (by decide)).mpr (by
    intro c hc h
    simp only [OtherBreak] at h
    revert c
    decide)
  rwa [show utf8Len "a\r\nb\r𝄞x".toList = 10 by decide, show "a\r\nb\r𝄞x".toList ++ "y".toList = "a\r\nb\r𝄞xy".toList from rfl, h2] at this

/-- **C73 violated**: a line separator in a comment is counted as a line end, so the missing value
is shown one line too far down. -/
theorem C73_violated :
    LspPlace ("// ".toList ++ Char.ofNat 0x2028 :: "\na ".toList) "1x".toList ⟨1, 2⟩ ∧
    byteToPosition 9 ("// ".toList ++ Char.ofNat 0x2028 :: "\na ".toList ++ "1x".toList) = ⟨2, 2⟩ := by
  refine ⟨?_, by decide⟩
  have := PlaceIn.single (brk := LspBreak) (a := "// ".toList ++ [Char.ofNat 0x2028]) (p := "a ".toList) (q := "1x".toList) (c := '\n') (l := 0)
    (k := 2) (by unfold LspBreak; decide) (Or.inl rfl) (by intro h; exact absurd h (by decide)) (.here (p := "a ".toList) (by unfold LspBreak; decide))
  exact this

end Kdl
